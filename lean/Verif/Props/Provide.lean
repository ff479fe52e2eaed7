import Verif.Spec.Announce
import Verif.Props.Announce

/-!
# C117: what is announced is answered
-/

namespace Teal.Props

open Teal Teal.Spec Teal.Lsp Teal.Lsp.Spec Teal.JsonSpec Teal.WireSpec

/-- There is a path to `true` or an object, whatever else there is. -/
def offers : Json → List Bytes → Bool
  | .bool b, [] => b
  | .obj _, [] => true
  | .obj ms, k :: ks => ms.any fun m => m.1 == k && offers m.2 ks
  | _, _ => false

theorem offers_of : ∀ {p : List Bytes} {j : Json}, Offers j p → offers j p = true
  | [], j, h => by
    rcases h with rfl | ⟨ms, rfl⟩ <;> rfl
  | k :: ks, j, h => by
    obtain ⟨ms, rfl, pre, v, post, rfl, -, -, hv⟩ := h
    have := offers_of hv
    unfold offers
    simp [this]

/-- The requests that are announced. -/
def announced : List Bytes :=
  [b!"completion", b!"hover", b!"signatureHelp", b!"definition", b!"documentHighlight", b!"documentSymbol", b!"codeAction", b!"codeLens",
    b!"formatting", b!"rename", b!"prepareRename", b!"semanticTokens/full", b!"inlineValue", b!"inlayHint", b!"diagnostic"].map
    (b!"textDocument/" ++ ·)

theorem provides_announced {st ih : Bool} {method : Bytes} (h : Provides (Wire.capabilitiesOut st ih) method) :
    method = b!"workspace/executeCommand" ∨ method ∈ announced := by
  obtain ⟨p, hp, ho⟩ := h
  have h1 := offers_of ho
  have key : ∀ st ih, providers.all (fun x => !offers (Wire.capabilitiesOut st ih) x.1 || x.2 == b!"workspace/executeCommand" ||
      announced.contains x.2) = true := by decide +kernel
  have := List.all_eq_true.1 (key st ih) _ hp
  dsimp only at this
  rw [h1] at this
  simpa using this

theorem reply_capabilities {t : Wire.Texts} {r : Result} {ms : List (Bytes × Json)} {caps : Json} (h : Wire.resultOut t r = .obj ms)
    (hc : Has ms b!"capabilities" (· = caps)) : ∃ st ih, caps = Wire.capabilitiesOut st ih := by
  obtain ⟨pre, v, post, rfl, -, -, rfl⟩ := hc
  have hm : (b!"capabilities", v) ∈ pre ++ (b!"capabilities", v) :: post := by simp
  generalize pre ++ (b!"capabilities", v) :: post = ms at h hm
  cases r with
  | capabilities st ih =>
    cases h
    exact ⟨st, ih, by simpa using hm⟩
  | codeLenses ls => simp only [Wire.resultOut] at h; split at h <;> cases h
  | signature op a =>
    simp only [Wire.resultOut, Wire.signatureOut] at h
    cases h
    simp at hm
  | _ => first | (cases h; done) | (cases h; simp at hm)

theorem arr_map {α : Type} {P : Json → Prop} {f : α → Json} (xs : List α) (h : ∀ x ∈ xs, P (f x)) : Arr P (.arr (xs.map f)) :=
  ⟨_, rfl, fun v hv => by obtain ⟨x, hx, rfl⟩ := List.mem_map.1 hv; exact h x hx⟩

theorem action_shape (a : Action) : IsObj (fun ms => Has ms b!"title" Str ∧ Opt ms b!"kind" Str ∧ Has ms b!"command" (IsObj fun cs =>
      Has cs b!"title" Str ∧ Has cs b!"command" (fun n => ∃ c ∈ commands, IsStr c n) ∧ Has cs b!"arguments" (Arr fun _ => True)))
    (Wire.actionOut a) := by
  refine ⟨_, rfl, has_find (by decide) rfl ⟨_, rfl⟩, .inr (has_find (by decide) rfl ⟨_, rfl⟩), has_find (by decide) rfl
    ⟨_, rfl, has_find (by decide) rfl ⟨_, rfl⟩, has_find (by decide) rfl ⟨_, ?_, rfl⟩, has_find (by decide) rfl ⟨_, rfl, fun _ _ => trivial⟩⟩⟩
  cases a.command <;> simp only [Wire.commandOut] <;> decide

/-- The answer has the form of the method. -/
theorem answer_shape {h : Host} {ch : Choice} {cfg : Config} {u s : Bytes} {r : ProcessResult} {q : Query} {a : Result} (t : Wire.Texts)
    {method : Bytes} {P : Bytes → Json → Prop} (hq : IsQuery q method P) (ha : answer h ch cfg u s r q = some a) :
    ResultOf method (Wire.resultOut t a) ∨
    method ∈ [b!"textDocument/prepareRename", b!"textDocument/hover", b!"textDocument/signatureHelp"] ∧ Wire.resultOut t a = .obj [] := by
  have hr : ∀ g, SomeRange (Wire.rangeOut g) := fun g => ⟨g, sees_range g⟩
  have he : ∀ g, SomeEdit (Wire.editOut g) := fun g => ⟨g, sees_edit g⟩
  have hp : ∀ g s, ResultOf b!"textDocument/prepareRename" (Wire.resultOut t (.prepareRename g s)) := fun g s =>
    .prepareRename ⟨_, rfl, has_find (by decide) rfl (hr _), has_find (by decide) rfl ⟨_, rfl⟩⟩
  cases hq with
  | prepareRename p =>
    have ha := Option.some.inj ha
    subst ha
    split
    · exact .inl (hp _ _)
    · split
      · exact .inl (hp _ _)
      · exact .inr ⟨by decide, rfl⟩
  | rename p n =>
    have ha := Option.some.inj ha
    subst ha
    exact .inl (.rename ⟨_, rfl, has_find (by decide) rfl ⟨_, _, rfl, arr_map _ fun e _ => he e⟩⟩)
  | inlineValue g =>
    have ha := Option.some.inj ha
    subst ha
    exact .inl (.inlineValue (arr_map _ fun v _ => ⟨_, rfl, has_find (by decide) rfl (hr _), has_find (by decide) rfl ⟨_, rfl⟩⟩))
  | codeLens =>
    have ha := Option.some.inj ha
    subst ha
    refine .inl ?_
    show ResultOf b!"textDocument/codeLens" (ite _ _ _)
    by_cases e : (if cfg.lensRefs then (r.symbols.filter fun s => refCount r.listing s.name > 0).map
        fun s => ((s.l : Int), refCount r.listing s.name) else []) = []
    · rw [if_pos e]; exact .nothing (by decide)
    · rw [if_neg e]; exact .codeLens (arr_map _ fun l _ => ⟨l, sees_lens l⟩)
  | inlayHint g =>
    obtain ⟨hs, -, rfl⟩ := Option.map_eq_some_iff.1 ha
    exact .inl (.inlayHint (arr_map _ fun l _ => ⟨l, sees_hint l⟩))
  | completion p =>
    obtain ⟨cs, -, rfl⟩ := Option.map_eq_some_iff.1 ha
    exact .inl (.completion (arr_map _ fun l _ => ⟨l, sees_completion t l⟩))
  | hover p =>
    obtain ⟨d, -, rfl⟩ := Option.map_eq_some_iff.1 ha
    cases d with
    | none => exact .inr ⟨by decide, rfl⟩
    | some d => exact .inl (.hover ⟨_, rfl, has_find (by decide) rfl (markup_sees (.inl rfl) _), .inr (has_find (by decide) rfl (hr _))⟩)
  | definition p =>
    have ha := Option.some.inj ha
    subst ha
    exact .inl (.definition (arr_map _ fun v _ => ⟨_, rfl, has_find (by decide) rfl ⟨_, rfl⟩, has_find (by decide) rfl (hr _)⟩))
  | formatting =>
    have ha := Option.some.inj ha
    subst ha
    exact .inl (.formatting (arr_map _ fun e _ => he e))
  | signatureHelp p =>
    simp only [answer] at ha
    split at ha
    · cases ha; exact .inr ⟨by decide, rfl⟩
    · split at ha
      · obtain ⟨cs, -, rfl⟩ := Option.map_eq_some_iff.1 ha
        exact .inl (.signatureHelp ⟨_, sees_signature t _ _⟩)
      · cases ha; exact .inr ⟨by decide, rfl⟩
  | codeAction g =>
    obtain ⟨cs, -, rfl⟩ := Option.map_eq_some_iff.1 ha
    exact .inl (.codeAction (arr_map _ fun a _ => action_shape a))
  | documentHighlight p =>
    have ha := Option.some.inj ha
    subst ha
    exact .inl (.documentHighlight (arr_map _ fun v _ => ⟨_, rfl, has_find (by decide) rfl (hr _)⟩))
  | documentSymbol =>
    have ha := Option.some.inj ha
    subst ha
    exact .inl (.documentSymbol (arr_map _ fun v _ => ⟨_, rfl, has_find (by decide) rfl ⟨_, rfl⟩,
      has_find (by decide) rfl ⟨6, by decide, by decide, num_integer 6⟩, has_find (by decide) rfl (hr _), has_find (by decide) rfl (hr _)⟩))
  | semanticTokens =>
    have ha := Option.some.inj ha
    subst ha
    exact .inl (.semanticTokens ⟨_, rfl, has_find (by decide) rfl (arr_map _ fun n _ => ⟨n, num_integer n⟩)⟩)

/-- C117: whatever the capabilities announce, in the terms of the protocol, is answered with a result of the form the
protocol gives it: once a client has received the capabilities `caps`, each well-formed request of an announced method is
answered at once and with one response.  It is partial because of the commands, which are announced and executed but not
answered, because of `{}`, which hover, signature help and prepare rename answer over nothing, and because of hovers over
negative numbers. -/
theorem C117_partial (h : Host) (ms : List (Choice × Msg)) (hr : Running h ms) (hup : ¬ ∃ y ∈ ms, IsShutdown y.2) (t : Wire.Texts)
    (i : Bytes) (r₀ : Result) (hs : .reply i r₀ ∈ (run h ms).sent) (ms₀ : List (Bytes × Json)) (caps : Json)
    (h₀ : Wire.resultOut t r₀ = .obj ms₀) (hc : Has ms₀ b!"capabilities" (· = caps))
    (method : Bytes) (hp : Provides caps method) (hne : method ≠ b!"workspace/executeCommand")
    (x : Choice × Msg) (hx : x.2.response = false) (fields : List (Bytes × Json)) (hcall : Calls x.2.call method fields)
    (hq : ∀ u q, x.2.call = .query (.given (u, q)) → ∃ s, Holds (ms.map (·.2)) u s ∧ (∀ l ∈ Query.lines q, 0 ≤ l) ∧ ¬ OverNegative s q)
    (hproc : ∀ u s mp, Holds (ms.map (·.2)) u s → process ⟨h.addrOk, mp⟩ s ≠ none) :
    ∃ r, (run h (ms ++ [x])).sent = (run h ms).sent ++ [.reply x.2.id r] ∧
      (ResultOf method (Wire.resultOut t r) ∨
        method ∈ [b!"textDocument/prepareRename", b!"textDocument/hover", b!"textDocument/signatureHelp"] ∧ Wire.resultOut t r = .obj []) := by
  obtain ⟨st, ih, rfl⟩ := reply_capabilities h₀ hc
  have hm := (provides_announced hp).resolve_left hne
  obtain ⟨ch, resp, id, call⟩ := x
  dsimp only at hx hcall hq ⊢
  subst hx
  cases hcall with
  | query hiq hps =>
    rename_i uri q P
    obtain ⟨s, h1, h2, h3⟩ := hq _ _ rfl
    obtain ⟨r, e⟩ := C48_answered_partial h ms (ch, ⟨false, id, .query (.given (uri, q))⟩) hr hup (.query id uri s q h1 h2 h3) hproc
    obtain ⟨ch', mp, r', -, ha⟩ := answered (h := h) (ms := ms) (u := uri) (t := s) (q := q) (a := r) ⟨hr, h1, hup, ch, id, e⟩
    exact ⟨r, e, answer_shape t hiq ha⟩
  | diagnostic hps =>
    rename_i uri
    obtain ⟨r, e⟩ := C48_answered_partial h ms (ch, ⟨false, id, .diagnostic (.given uri)⟩) hr hup (.diagnostic id uri) hproc
    refine ⟨r, e, .inl ?_⟩
    have hd : ∃ ds, r = .diagnostics ds := by
      have hsh : (run h ms).st.shutdown = false := by
        rw [← Bool.not_eq_true, shutdown_iff h ms hr]; exact hup
      rw [run_running hr] at e
      simp only [handle, handleRequest, hsh, Bool.false_eq_true, if_false] at e
      split at e
      · simp at e
      · rename_i d hd
        split at hd
        · cases hd
          simp only [List.append_cancel_left_eq, List.cons.injEq, Sent.reply.injEq, true_and, and_true] at e
          exact ⟨_, e.symm⟩
        · obtain ⟨y, -, rfl⟩ := Option.map_eq_some_iff.1 hd
          simp only [List.append_cancel_left_eq, List.cons.injEq, Sent.reply.injEq, true_and, and_true] at e
          exact ⟨_, e.symm⟩
    obtain ⟨ds, rfl⟩ := hd
    exact .diagnostic ⟨_, rfl, has_find (by decide) rfl rfl, has_find (by decide) rfl (arr_map _ fun d _ => ⟨d, sees_diag t d⟩)⟩
  | unknown h1 h2 =>
    refine (h1 ?_).elim
    have key : announced.all (fun m => methods.contains m) = true := by decide +kernel
    simpa using List.all_eq_true.1 key _ hm
  | _ => exact absurd hm (by decide)

/-- A session that has initialised and opened a document. -/
def begun : List (Choice × Msg) :=
  [(sampleChoice, ⟨false, b!"0", .initialize (.given none)⟩), (sampleChoice, ⟨false, b!"null", .didOpen (.given (b!"u", b!"b x\nx:"))⟩)]

theorem provides_at (k : Bytes) {method : Bytes} (h : ([k], method) ∈ providers) (hk : Ascii k) (ms : List (Bytes × Json))
    {v : Json} (hf : (ms.filter fun m => Wire.equalFold k m.1) = [(k, v)]) (hv : v = .bool true ∨ ∃ ms, v = .obj ms) : Provides (.obj ms) method :=
  ⟨_, h, ms, rfl, has_find hk hf hv⟩

/-- The hypotheses are met by a hover: the session runs, has received the capabilities, which announce it, and holds the document. -/
example : ∃ st ih, Running sampleHost begun ∧ .reply b!"0" (.capabilities st ih) ∈ (run sampleHost begun).sent ∧
    Has [(b!"capabilities", Wire.capabilitiesOut st ih)] b!"capabilities" (· = Wire.capabilitiesOut st ih) ∧
    Provides (Wire.capabilitiesOut st ih) b!"textDocument/hover" ∧ Provides (Wire.capabilitiesOut st ih) b!"textDocument/diagnostic" ∧
    Holds (begun.map (·.2)) b!"u" b!"b x\nx:" ∧
    Calls (.query (.given (b!"u", .hover ⟨0, 0⟩))) b!"textDocument/hover" [(b!"params", .obj [(b!"textDocument", .obj [(b!"uri", .str b!"u")]),
      (b!"position", .obj [(b!"line", .num b!"0"), (b!"character", .num b!"0")])])] := by
  refine ⟨true, true, ?_, ?_, has_find (by decide) rfl rfl, provides_at b!"hoverProvider" (by decide) (by decide) _ rfl (.inl rfl),
    provides_at b!"diagnosticProvider" (by decide) (by decide) _ rfl (.inr ⟨_, rfl⟩), .opened [_] [] _ _ _ ⟨rfl, rfl⟩ (by simp), ?_⟩
  · constructor <;> decide +kernel
  · decide +kernel
  · have h0 : IsInt 0 (.num b!"0") := ⟨_, rfl, .inl ⟨0, rfl, (by decide +kernel : formatUint 0 = b!"0") ▸ formatUint_decimal 0⟩, by decide, by decide⟩
    exact .query (.hover _) (has_find (by decide) rfl ⟨_, rfl, has_find (by decide) rfl ⟨_, rfl, has_find (by decide) rfl rfl⟩,
      has_find (by decide) rfl ⟨_, rfl, has_find (by decide) rfl h0, has_find (by decide) rfl h0⟩⟩)

/-- The commands are announced but not answered; a hover over nothing is answered with `{}`, which is no hover. -/
theorem C117_false (t : Wire.Texts) :
    (.reply b!"0" (.capabilities true true) ∈ (run sampleHost begun).sent ∧
      Provides (Wire.capabilitiesOut true true) b!"workspace/executeCommand" ∧
      (run sampleHost (begun ++ [(sampleChoice, ⟨false, b!"1", .executeCommand (.given (some [.lineRemove b!"u" 1]))⟩)])).sent.filterMap responseTo =
        [b!"0"]) ∧
    (run sampleHost (begun ++ [(sampleChoice, ⟨false, b!"1", .query (.given (b!"u", .hover ⟨7, 0⟩))⟩)])).sent =
        (run sampleHost begun).sent ++ [.reply b!"1" .emptyObject] ∧
      ¬ ResultOf b!"textDocument/hover" (Wire.resultOut t .emptyObject) := by
  refine ⟨⟨by decide +kernel, provides_at b!"executeCommandProvider" (by decide) (by decide) _ rfl (.inr ⟨_, rfl⟩), by decide +kernel⟩, by decide +kernel, ?_⟩
  intro h
  generalize hm : b!"textDocument/hover" = m at h
  generalize hj : Wire.resultOut t .emptyObject = j at h
  cases h with
  | hover h =>
    subst hj
    obtain ⟨ms, e, ⟨a, v, b, e', -⟩, -⟩ := h
    cases e
    cases a <;> cases e'
  | nothing _ => cases hj
  | _ => revert hm; decide

/-- What the server answers it announces: every request about a document that it knows, if the settings do not turn it off. -/
theorem C117_announced {st ih : Bool} {caps : Json} (hc : SeesCapabilities st ih caps) {q : Query} {method : Bytes} {P : Bytes → Json → Prop}
    (hq : IsQuery q method P) (h1 : q = .semanticTokens → st = true) (h2 : (∃ r, q = .inlayHint r) → ih = true) : Provides caps method := by
  obtain ⟨ms, rfl, c1, c2, c3, c4, c5, c6, c7, c8, c9, c10, c11, c12, c13, c14, c15, c16⟩ := hc
  have mono : ∀ {k : Bytes} {P Q : Json → Prop}, Has ms k P → (∀ j, P j → Q j) → Has ms k Q := fun ⟨a, v, b, e, h1, h2, h3⟩ hpq =>
    ⟨a, v, b, e, h1, h2, hpq _ h3⟩
  have hy : ∀ {k : Bytes}, Has ms k (Yes true) → Offers (.obj ms) [k] := fun h => ⟨ms, rfl, mono h fun j e => .inl e⟩
  have ho : ∀ {k : Bytes} {P}, Has ms k (IsObj P) → Offers (.obj ms) [k] := fun h => ⟨ms, rfl, mono h fun j ⟨m, e, _⟩ => .inr ⟨m, e⟩⟩
  cases hq with
  | prepareRename p =>
    refine ⟨[b!"renameProvider", b!"prepareProvider"], by decide, ms, rfl, mono c7 ?_⟩
    rintro j ⟨m, e, a, v, b, e', g1, g2, g3⟩
    exact ⟨m, e, a, v, b, e', g1, g2, .inl g3⟩
  | rename p n => exact ⟨_, by decide, ho c7⟩
  | inlineValue g => exact ⟨_, by decide, hy c15⟩
  | codeLens => exact ⟨_, by decide, ho c16⟩
  | inlayHint g => rw [h2 ⟨g, rfl⟩] at c14; exact ⟨_, by decide, hy c14⟩
  | completion p => exact ⟨_, by decide, ho c3⟩
  | hover p => exact ⟨_, by decide, hy c12⟩
  | definition p => exact ⟨_, by decide, hy c11⟩
  | formatting => exact ⟨_, by decide, hy c10⟩
  | signatureHelp p => exact ⟨_, by decide, ho c13⟩
  | codeAction g => exact ⟨_, by decide, hy c5⟩
  | documentHighlight p => exact ⟨_, by decide, hy c8⟩
  | documentSymbol => exact ⟨_, by decide, hy c4⟩
  | semanticTokens =>
    rw [if_pos (h1 rfl)] at c9
    refine ⟨[b!"semanticTokensProvider", b!"full"], by decide, ms, rfl, mono c9 ?_⟩
    rintro j ⟨m, e, -, -, a, v, b, e', g1, g2, g3⟩
    exact ⟨m, e, a, v, b, e', g1, g2, .inl g3⟩

end Teal.Props
