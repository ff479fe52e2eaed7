import Verif.Lemmas.Cli
import Verif.Props.WireOut
import Verif.Props.SarifOut
import Verif.Props.DapWire

/-!
# C109: the tools do what their command lines say
-/

namespace Teal.Props

open Teal Teal.Spec Teal.WireSpec Teal.Frame Teal.Frame.Spec Teal.Cli Teal.CliSpec Teal.Lsp Teal.Lsp.Spec

/-- C109: the flags are read as users write them, in any of the four spellings: the values are those of the options before the
first word that is no option. -/
theorem C109_flags {names : List Bytes} (hn : ∀ n ∈ names, n ≠ [] ∧ 61 ∉ n ∧ n.head? ≠ some 45) (ws : List Bytes)
    (l : List (Bytes × Bytes)) : parseFlags names ws = .values l ↔ Line names ws l := line_iff hn

/-- C109 (partial, it is false of tealdbg): tealsp serves what its command line asks for, if that is possible, and otherwise panics;
it exits at once exactly if the command line asks for nothing. -/
theorem C109_tealsp_partial (w : World) (ws : List Bytes) :
    (∀ s, tealsp w ws = .serves s ↔ Asks ws s ∧ Possible w s) ∧
    (tealsp w ws = .panics ↔ ∃ s, Asks ws s ∧ ¬ Possible w s) ∧
    ((tealsp w ws = .exits 0 ∨ tealsp w ws = .exits 2) ↔ ¬ ∃ s, Asks ws s) := by
  have hstart : ∀ {names words : List Bytes} {f : List (Bytes × Bytes) → Serving},
      (∃ l, parseFlags names words = .values l ∧ withFlags names words (fun l => begin w (f l)) = begin w (f l)) ∨
      ((∀ l, parseFlags names words ≠ .values l) ∧
        (withFlags names words (fun l => begin w (f l)) = .exits 0 ∨ withFlags names words (fun l => begin w (f l)) = .exits 2)) := by
    intro names words f
    unfold withFlags
    cases parseFlags names words with
    | values l => exact .inl ⟨l, rfl, rfl⟩
    | help => exact .inr ⟨(fun l h => by cases h), .inl rfl⟩
    | wrong => exact .inr ⟨(fun l h => by cases h), .inr rfl⟩
  have hb : ∀ s : Serving, begin w s ≠ .exits 0 ∧ begin w s ≠ .exits 2 := by
    intro s; unfold begin; split <;> exact ⟨(fun h => by cases h), (fun h => by cases h)⟩
  have fin : ∀ {x : Start} {s0 : Serving}, (∀ s, Asks ws s ↔ s = s0) → x = begin w s0 →
      (∀ s, x = .serves s ↔ Asks ws s ∧ Possible w s) ∧ (x = .panics ↔ ∃ s, Asks ws s ∧ ¬ Possible w s) ∧
      ((x = .exits 0 ∨ x = .exits 2) ↔ ¬ ∃ s, Asks ws s) := by
    rintro x s0 ha rfl
    refine ⟨fun s => ?_, ?_, ?_⟩
    · rw [begin_serves, ha]
      exact ⟨fun ⟨e, h⟩ => ⟨e.symm, e ▸ h⟩, fun ⟨e, h⟩ => ⟨e.symm, e ▸ h⟩⟩
    · rw [begin_panics]
      exact ⟨fun h => ⟨s0, (ha _).2 rfl, h⟩, fun ⟨s, hs, h⟩ => ((ha s).1 hs) ▸ h⟩
    · exact ⟨fun h => absurd h (fun h => h.elim (hb _).1 (hb _).2), fun h => absurd ⟨s0, (ha _).2 rfl⟩ h⟩
  have nofin : ∀ {x : Start}, (¬ ∃ s, Asks ws s) → (x = .exits 0 ∨ x = .exits 2) →
      (∀ s, x = .serves s ↔ Asks ws s ∧ Possible w s) ∧ (x = .panics ↔ ∃ s, Asks ws s ∧ ¬ Possible w s) ∧
      ((x = .exits 0 ∨ x = .exits 2) ↔ ¬ ∃ s, Asks ws s) := by
    intro x hn hx
    refine ⟨fun s => ⟨fun h => ?_, fun h => absurd ⟨s, h.1⟩ hn⟩, ⟨fun h => ?_, fun ⟨s, h, _⟩ => absurd ⟨s, h⟩ hn⟩, fun _ => hn, fun _ => hx⟩
    · rcases hx with rfl | rfl <;> cases h
    · rcases hx with rfl | rfl <;> cases h
  unfold tealsp
  split
  · rename_i hw
    rcases hstart (names := [b!"debug"]) (words := ws.tail) (f := fun l => ⟨.debug, none, traceOf l []⟩) with ⟨l, hl, e⟩ | ⟨hl, e⟩
    · refine fin (s0 := ⟨.debug, none, traceOf l []⟩) (fun s => ?_) e
      rw [asks_iff]
      constructor
      · rintro (⟨l', _, h, rfl⟩ | ⟨l', h, _⟩)
        · rw [hl] at h; cases h; rfl
        · exact absurd hw h
      · rintro rfl; exact .inl ⟨l, hw, hl, rfl⟩
    · refine nofin ?_ e
      rintro ⟨s, hs⟩
      rcases asks_iff.1 hs with ⟨l', _, h, rfl⟩ | ⟨l', h, _⟩
      · exact hl _ h
      · exact h hw
  · rename_i hw
    rcases hstart (names := [b!"net", b!"addr", b!"debug"]) (words := ws) (f := fun l => ⟨.language, connectionOf l, traceOf l []⟩)
      with ⟨l, hl, e⟩ | ⟨hl, e⟩
    · refine fin (s0 := ⟨.language, connectionOf l, traceOf l []⟩) (fun s => ?_) e
      rw [asks_iff]
      constructor
      · rintro (⟨l', h, _⟩ | ⟨l', _, h, rfl⟩)
        · exact absurd h hw
        · rw [hl] at h; cases h; rfl
      · rintro rfl; exact .inr ⟨l, hw, hl, rfl⟩
    · refine nofin ?_ e
      rintro ⟨s, hs⟩
      rcases asks_iff.1 hs with ⟨l', h, _⟩ | ⟨l', _, h, rfl⟩
      · exact hw h
      · exact hl _ h

/-- An empty command line: the language server on standard input and output, without a trace; `tealsp dbg`: the debugger. -/
example : Asks [] ⟨.language, none, none⟩ ∧ Asks [b!"dbg"] ⟨.debug, none, none⟩ ∧
    Asks [b!"--addr=:7", b!"-debug", b!"x", b!"-addr", b!"h:1", b!"dbg", b!"-net"] ⟨.language, some (b!"tcp", b!"h:1"), some b!"x"⟩ := by
  refine ⟨asks_iff.2 (.inr ⟨[], ?_⟩), asks_iff.2 (.inl ⟨[], ?_⟩), asks_iff.2 (.inr ⟨[(b!"addr", b!":7"), (b!"debug", b!"x"), (b!"addr", b!"h:1")], ?_⟩)⟩ <;>
    decide +kernel

example : Line [b!"net", b!"addr", b!"debug"] [b!"--addr=:7", b!"-debug", b!"x", b!"dbg", b!"-net"] [(b!"addr", b!":7"), (b!"debug", b!"x")] :=
  .option (o := [b!"--addr=:7"]) (by decide) .joined2 (.option (o := [b!"-debug", b!"x"]) (by decide) .apart (.plain _ (.inl (by decide))))

/-- C109, as a whole false: the debugger cannot be started without options unless it can create a file it was not asked for. -/
theorem C109_false (w : World) (h : w.creates b!"E:/dbg.txt" = false) : tealdbg w [] = .panics := by
  have : tealdbg w [] = begin w ⟨.debug, none, some b!"E:/dbg.txt"⟩ := rfl
  rw [this, begin_panics]
  intro hp
  have := hp.2 _ rfl
  rw [h] at this
  cases this

example : tealdbg ⟨fun _ _ => true, fun _ => false⟩ [b!"-debug="] = .serves ⟨.debug, none, none⟩ := by decide +kernel

theorem code_running (h : Lsp.Host) : ∀ ms, Running h ms → (Lsp.run h ms).st.exitCode = 0 := by
  refine snoc_induct ?_ ?_
  · intro _; rfl
  · intro ms y ih hr
    obtain ⟨hr', o, ho, hst, _⟩ := running_snoc hr
    have hf := handle_flags ho
    have he := hf.exit
    rw [← hst, hr.2] at he
    have : ¬ IsExit y.2 := by
      intro hy; simp [hy] at he
    rw [hst, hf.exitCode, if_neg (fun h => this h.1)]
    exact ih hr'

/-- C109: the language server ends with status 0 after its client has asked for shutdown and then for exit, and with status 1 if it
was asked to exit without that; what follows is not looked at.  What it writes is what it sent before. -/
theorem C109_exit {w : World} {words : List Bytes} {tr : Option Bytes} (ha : Asks words ⟨.language, none, tr⟩)
    (hp : Possible w ⟨.language, none, tr⟩) (h : Lsp.Host) {number : Bytes → Option Bytes} (hn : WireSpec.Faithful number)
    (choices : Nat → Lsp.Choice) (t : Wire.Texts) {fs rest : List Packet} {f : Packet} {id : Json}
    (hf : ∀ g ∈ fs ++ f :: rest, CliSpec.Sound g) (he : f.2.2 = some (id, .exit)) (hrun : Running h (messages choices fs)) :
    ∃ k, served w h number choices t words (input (fs ++ f :: rest)) =
        some (k, (Lsp.run h (messages choices fs)).sent.flatMap fun x => Frame.writeFrame (Wire.sent t x)) ∧
      ((∃ g ∈ fs, ∃ i, g.2.2 = some (i, .shutdown)) → k = 0) ∧ ((¬ ∃ g ∈ fs, ∃ i, g.2.2 = some (i, .shutdown)) → k = 1) := by
  have hs := ((C109_tealsp_partial w words).1 _).2 ⟨ha, hp⟩
  have h2 := C102 h hn choices (fs ++ f :: rest) (fun g hg => ⟨(hf g hg).1, (hf g hg).2.1⟩) (fun g hg => (hf g hg).2.2)
  have hm : ∃ c ms', messages choices (fs ++ f :: rest) = messages choices fs ++ (c, (⟨false, id.text, .exit⟩ : Lsp.Msg)) :: ms' := by
    unfold messages
    rw [List.zipIdx_append, List.filterMap_append, List.zipIdx_cons, List.filterMap_cons]
    simp only [he, Option.map_some]
    exact ⟨_, _, rfl⟩
  obtain ⟨c, ms', hm⟩ := hm
  have hx := C47_exit h (messages choices fs) ms' (c, ⟨false, id.text, .exit⟩) hrun ⟨rfl, rfl⟩
  rw [← hm] at hx
  obtain ⟨-, h3, h4, h5, h6⟩ := hx
  have hk : (∃ y ∈ messages choices fs, IsShutdown y.2) ↔ ∃ g ∈ fs, ∃ i, g.2.2 = some (i, .shutdown) := by
    unfold messages
    constructor
    · rintro ⟨y, hy, hs⟩
      obtain ⟨p, hp, e⟩ := List.mem_filterMap.1 hy
      cases hp2 : p.1.2.2 with
      | none => rw [hp2] at e; cases e
      | some m =>
        rw [hp2] at e; cases e
        exact ⟨p.1, List.fst_mem_of_mem_zipIdx hp, m.1, by rw [hp2, ← hs.2]⟩
    · rintro ⟨g, hg, i, e⟩
      rw [← List.zipIdx_map_fst 0 fs] at hg
      obtain ⟨p, hp, rfl⟩ := List.mem_map.1 hg
      exact ⟨_, List.mem_filterMap.2 ⟨p, hp, by rw [e]; rfl⟩, rfl, rfl⟩
  refine ⟨_, ?_, fun h' => h5 (hk.2 h'), fun h' => h6 (fun h => h' (hk.1 h))⟩
  unfold served
  rw [hs]
  dsimp only
  unfold input
  rw [h2]
  unfold status
  have e : (frames : List Packet) → (frames.zipIdx.filterMap fun p => p.1.2.2.map fun m => (choices p.2, ({ id := m.1.text, call := m.2 } : Lsp.Msg))) = messages choices frames := fun _ => rfl
  rw [e, h3]
  unfold Frame.written
  rw [h4]
  rfl

/-- A frame with a message that has no parameters. -/
def bareFrame (method : Bytes) (c : Lsp.Call) : Packet :=
  let body := b!"{\"jsonrpc\":\"2.0\",\"id\":1,\"method\":\"" ++ method ++ b!"\"}"
  ([(b!"Content-Length", formatUint body.length)], body, some (.num b!"1", c))

theorem bareFrame_proper {method : Bytes} {c : Lsp.Call} (hp : JsonSpec.Chars False method method) (hl : method.length < 100)
    (hc : ∀ ms, WireSpec.Calls c method ms) : CliSpec.Sound (bareFrame method c) := by
  refine ⟨(writeFrame_valid _).1, ?_, ?_⟩
  · have : ((bareFrame method c).2.1).length < 200 := by
      simp only [bareFrame, List.length_append, List.length_cons, List.length_nil]
      omega
    omega
  · show ∃ n j, n ≤ 10000 ∧ JsonSpec.Spells n _ j ∧ WireSpec.Asks j (.num b!"1") c
    have hn : JsonSpec.JsonNumber b!"1" := ⟨[], b!"1", [], [], rfl, .inl rfl, .inr ⟨⟨by decide, by decide⟩, by decide⟩, .inl rfl, .inl rfl⟩
    have hd : ∀ {n : Nat} {s : Bytes}, formatUint n = s → DecimalOf n s := fun h => h ▸ formatUint_decimal _
    refine ⟨1, .obj [(b!"jsonrpc", .str b!"2.0"), (b!"id", .num b!"1"), (b!"method", .str method)], by decide, ?_, ?_⟩
    · refine ⟨[], _, [], by decide, .obj (s := b!"\"jsonrpc\":\"2.0\",\"id\":1,\"method\":\"" ++ (method ++ b!"\"")) ?_, by decide, ?_⟩
      · refine .members (a := []) (k := b!"jsonrpc") (b := []) (c := []) (s := b!"\"2.0\"") (d := []) (t := b!"\"id\":1,\"method\":\"" ++ (method ++ b!"\""))
          (by decide) (plain_chars (by decide)) (by decide) (by decide) (.str (s := b!"2.0") (plain_chars (by decide))) (by decide) ?_
        refine .members (a := []) (k := b!"id") (b := []) (c := []) (s := b!"1") (d := []) (t := b!"\"method\":\"" ++ (method ++ b!"\""))
          (by decide) (plain_chars (by decide)) (by decide) (by decide) (.num hn) (by decide) ?_
        have := JsonSpec.Spelled.member (n := 0) (a := []) (k := b!"method") (b := []) (c := []) (s := 34 :: (method ++ [34])) (d := [])
          (by decide) (plain_chars (by decide)) (by decide) (by decide) (.str (s := method) hp) (by decide)
        simpa using this
      · simp [bareFrame]
    · refine ⟨_, method, rfl, has_find (by decide) rfl rfl, .num (i := 1) (has_find (by decide) rfl rfl) (.inl ⟨1, rfl, hd (by decide +kernel)⟩) (by decide) (by decide),
        has_find (by decide) rfl rfl, lacks_of (by decide) (by rfl), lacks_of (by decide) (by rfl), hc _⟩

/-- A session that shuts the server down and lets it exit, with a third message that it does not look at. -/
example : (∀ g ∈ [bareFrame b!"shutdown" .shutdown] ++ bareFrame b!"exit" .exit :: [bareFrame b!"initialized" .initialized], CliSpec.Sound g) ∧
    Running sampleHost (messages (fun _ => sampleChoice) [bareFrame b!"shutdown" .shutdown]) := by
  refine ⟨?_, ⟨by decide +kernel, by decide +kernel⟩⟩
  intro g hg
  simp only [List.cons_append, List.nil_append, List.mem_cons, List.not_mem_nil, or_false] at hg
  rcases hg with rfl | rfl | rfl
  · exact bareFrame_proper (plain_chars (by decide)) (by decide) fun _ => .shutdown
  · exact bareFrame_proper (plain_chars (by decide)) (by decide) fun _ => .exit
  · exact bareFrame_proper (plain_chars (by decide)) (by decide) fun _ => .initialized

/-- C109: if the input ends before an exit notification, the status is 0. -/
theorem C109_end {w : World} {words : List Bytes} {tr : Option Bytes} (ha : Asks words ⟨.language, none, tr⟩)
    (hp : Possible w ⟨.language, none, tr⟩) (h : Lsp.Host) {number : Bytes → Option Bytes} (hn : WireSpec.Faithful number)
    (choices : Nat → Lsp.Choice) (t : Wire.Texts) {fs : List Packet} (hf : ∀ g ∈ fs, CliSpec.Sound g) (hrun : Running h (messages choices fs)) :
    served w h number choices t words (input fs) =
      some (0, (Lsp.run h (messages choices fs)).sent.flatMap fun x => Frame.writeFrame (Wire.sent t x)) := by
  have hs := ((C109_tealsp_partial w words).1 _).2 ⟨ha, hp⟩
  have h2 := C102 h hn choices fs (fun g hg => ⟨(hf g hg).1, (hf g hg).2.1⟩) (fun g hg => (hf g hg).2.2)
  unfold served
  rw [hs]
  dsimp only
  unfold input
  rw [h2]
  unfold status
  have e : (frames : List Packet) → (frames.zipIdx.filterMap fun p => p.1.2.2.map fun m => (choices p.2, ({ id := m.1.text, call := m.2 } : Lsp.Msg))) = messages choices frames := fun _ => rfl
  rw [e, hrun.1, code_running h _ hrun]
  rfl

/-- C109: the scanner scans the path of the last `-path` option; it prints a report and ends with status 0 exactly if the scan
succeeds, and otherwise prints nothing and ends with status 2. -/
theorem C109_sarif (env : Env) (operand : Nat → Bytes) (files : Bytes → Sarif.Files) {words : List Bytes}
    {l : List (Bytes × Bytes)} {p : Bytes} (hl : Line [b!"path"] words l) (hp : Value l b!"path" [] p) :
    (∀ r, Sarif.scan env (files p) = .report r →
      (tealsarif env operand files words).1 = 0 ∧ ∃ n j, JsonSpec.Spells n (tealsarif env operand files words).2 j ∧ SarifSpec.IsReport r j) ∧
    ((¬ ∃ r, Sarif.scan env (files p) = .report r) → tealsarif env operand files words = (2, [])) := by
  have h1 := parse_of_line (by decide) hl
  have h2 := value_iff.1 hp
  unfold tealsarif
  rw [h1]
  dsimp only
  rw [h2]
  constructor
  · intro r hr
    rw [hr]
    refine ⟨rfl, ?_⟩
    have := C108 hr operand
    rw [hr] at this
    exact this
  · intro hr
    split
    · rename_i r e; exact absurd ⟨r, e⟩ hr
    · rfl

example : (fun o : Nat × Bytes => (o.1, (Json.parse o.2).isSome))
    (tealsarif sampleEnv (fun _ => []) (fun p => { root := .file p, read := fun _ => some b!"foo", abs := some })
      [b!"-path", b!"a.teal"]) = (0, true) ∧
    tealsarif sampleEnv (fun _ => []) (fun p => { root := .file p, read := fun _ => none, abs := some })
      [b!"-path=a.teal"] = (2, []) := by decide +kernel

end Teal.Props
