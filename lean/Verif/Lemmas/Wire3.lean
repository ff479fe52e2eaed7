import Verif.Lemmas.Wire2
import Verif.Lemmas.Json2

/-!
# Lemmas: requests and notifications are read
-/

namespace Teal.WireSpec

open Teal Teal.Spec Teal.JsonSpec Teal.Wire

theorem single_reads {α : Type} {k : Bytes} (hk : Ascii k) {P : Json → Prop} {d : Dec α} {old a : α} {ms : List (Bytes × Json)}
    (h : Has ms k P) (hd : ∀ v, P v → d old v = some a) : struct [(k, d)] old (.obj ms) = some a := by
  obtain ⟨v, e, o, p⟩ := has_pick h hk rfl
  have ht : Table [(k, d)] := ⟨by simpa using hk, List.pairwise_singleton _ _, List.pairwise_singleton _ _⟩
  show members _ _ _ = _
  rw [members_eq ht ms _ (by simpa using o)]
  simp [fill, e, hd v p]

theorem params_reads {α : Type} {zero a : α} {d : Dec α} {P : Json → Prop} {ms : List (Bytes × Json)} (h : Has ms b!"params" P)
    (hd : ∀ v, P v → v ≠ .null ∧ d zero v = some a) : params zero d (.obj ms) = some (some a) :=
  single_reads (by decide) h fun v hv => ptr_zero (hd v hv).1 (hd v hv).2

theorem arguments_reads {α : Type} {zero a : α} {d : Dec α} {P : Json → Prop} {ms : List (Bytes × Json)}
    (h : Has ms b!"params" (IsObj fun ps => Has ps b!"arguments" fun j => ∃ v, j = .arr [v] ∧ P v))
    (hd : ∀ v, P v → d zero v = some a) : arguments zero d (.obj ms) = some [a] := by
  refine single_reads (by decide) h ?_
  rintro _ ⟨ps, rfl, hp⟩
  refine single_reads (by decide) hp ?_
  rintro _ ⟨v, rfl, hv⟩
  show elems _ _ _ _ = _
  simp [elems, hd v hv]

theorem Has.imp {ms : List (Bytes × Json)} {k : Bytes} {P Q : Json → Prop} (h : Has ms k P) (hi : ∀ v, P v → Q v) : Has ms k Q := by
  obtain ⟨a, v, b, h1, h2, h3, h4⟩ := h
  exact ⟨a, v, b, h1, h2, h3, hi v h4⟩

theorem Has.exact {ms : List (Bytes × Json)} {k : Bytes} {P : Json → Prop} (h : Has ms k P) : ∃ v, P v ∧ Has ms k (· = v) := by
  obtain ⟨a, v, b, h1, h2, h3, h4⟩ := h
  exact ⟨v, h4, a, v, b, h1, h2, h3, rfl⟩

theorem execute_reads {c : Lsp.Command} {ms : List (Bytes × Json)} (h : Has ms b!"params" (IsExecute c)) :
    ∃ name, params [] command (.obj ms) = some (some name) ∧ commandArgs name (.obj ms) = .executeCommand (.given (some [c])) := by
  obtain ⟨v, ⟨ps, rfl, name, hn, ha⟩, h⟩ := h.exact
  refine ⟨name, params_reads h ?_, ?_⟩
  · rintro _ rfl
    exact ⟨fun h => (by cases h), command_reads ⟨ps, rfl, hn⟩ []⟩
  obtain ⟨_, ⟨w, rfl, hw⟩, ha⟩ := ha.exact
  have key : ∀ {α : Type} {zero a : α} {d : Dec α}, d zero w = some a → arguments zero d (.obj ms) = some [a] := by
    intro α zero a d hd
    refine arguments_reads (P := (· = w)) (h.imp ?_) ?_
    · rintro _ rfl
      exact ⟨ps, rfl, ha.imp (by rintro _ rfl; exact ⟨w, rfl, rfl⟩)⟩
    · rintro _ rfl; exact hd
  cases hw with
  | versionUpdate h1 h2 h3 h4 =>
    have := key (updateVersion_reads h3 h4 ⟨_, rfl, h1, h2⟩ ([], 0))
    simp [commandArgs, this]
  | valueReplace h1 h2 h3 =>
    have := key (replaceValue_reads ⟨_, rfl, h1, h2, h3⟩ {})
    simp [commandArgs, this]
  | lineRemove h1 h2 =>
    have := key (removeLine_reads ⟨_, rfl, h1, h2⟩ ([], 0))
    simp [commandArgs, this]
  | labelRemove h1 h2 =>
    have := key (label_reads ⟨_, rfl, h1, h2⟩ ([], []))
    simp [commandArgs, this]
  | labelCreate h1 h2 =>
    have := key (label_reads ⟨_, rfl, h1, h2⟩ ([], []))
    simp [commandArgs, this]

theorem query_reads {q : Lsp.Query} {method uri : Bytes} {P : Bytes → Json → Prop} {ms : List (Bytes × Json)} (hq : IsQuery q method P)
    (h : Has ms b!"params" (P uri)) : call method (.obj ms) = .query (.given (uri, q)) := by
  cases hq with
  | prepareRename p =>
    have := params_reads h fun v hv => ⟨isObj_ne_null hv, prepareRename_reads hv ([], pos0)⟩
    simp [call, this, given]
  | rename p name =>
    have := params_reads h fun v hv => ⟨isObj_ne_null hv, rename_reads hv {}⟩
    simp [call, this, given]
  | inlineValue r =>
    have := params_reads h fun v hv => ⟨isObj_ne_null hv, docRange_reads hv ([], range0)⟩
    simp [call, this, given]
  | codeLens =>
    have := params_reads h fun v hv => ⟨isObj_ne_null hv, docOnly_reads hv []⟩
    simp [call, this, given]
  | inlayHint r =>
    have := params_reads h fun v hv => ⟨isObj_ne_null hv, docRange_reads hv ([], range0)⟩
    simp [call, this, given]
  | completion p =>
    have := params_reads h fun v hv => ⟨isObj_ne_null hv, docPos_reads hv ([], pos0)⟩
    simp [call, this, given]
  | hover p =>
    have := params_reads h fun v hv => ⟨isObj_ne_null hv, docPos_reads hv ([], pos0)⟩
    simp [call, this, given]
  | definition p =>
    have := params_reads h fun v hv => ⟨isObj_ne_null hv, docPos_reads hv ([], pos0)⟩
    simp [call, this, given]
  | formatting =>
    have := params_reads h fun v hv => ⟨isObj_ne_null hv, docOnly_reads hv []⟩
    simp [call, this, given]
  | signatureHelp p =>
    have := params_reads h fun v hv => ⟨isObj_ne_null hv, docPos_reads hv ([], pos0)⟩
    simp [call, this, given]
  | codeAction r =>
    obtain ⟨v, hv, h⟩ := h.exact
    obtain ⟨c, hc⟩ := codeAction_reads hv
    have := params_reads (d := codeAction) h (by rintro _ rfl; exact ⟨isObj_ne_null hv, hc⟩)
    simp [call, this, given]
  | documentHighlight p =>
    have := params_reads h fun v hv => ⟨isObj_ne_null hv, docPos_reads hv ([], pos0)⟩
    simp [call, this, given]
  | documentSymbol =>
    have := params_reads h fun v hv => ⟨isObj_ne_null hv, docPtr_reads hv none⟩
    simp [call, this, given]
  | semanticTokens =>
    have := params_reads h fun v hv => ⟨isObj_ne_null hv, docOnly_reads hv []⟩
    simp [call, this, given]

theorem call_reads {c : Lsp.Call} {method : Bytes} {ms : List (Bytes × Json)} (h : Calls c method ms) : call method (.obj ms) = c := by
  cases h with
  | initialized => rfl
  | exit => rfl
  | shutdown => rfl
  | cancelRequest => rfl
  | didOpen h =>
    obtain ⟨v, ⟨ps, rfl, hp⟩, h⟩ := h.exact
    obtain ⟨w, hw, hp⟩ := hp.exact
    obtain ⟨i, hi⟩ := item_reads hw {}
    have := params_reads (d := struct [(b!"textDocument", ptr {} opened)]) (zero := none) h (by
      rintro _ rfl
      exact ⟨fun h => (by cases h), single_reads (by decide) hp (by rintro _ rfl; exact ptr_zero (isObj_ne_null hw) hi)⟩)
    simp [call, this, given]
  | didChange h =>
    obtain ⟨v, hv, h⟩ := h.exact
    obtain ⟨i, hi⟩ := didChange_reads hv
    have := params_reads (d := didChange) h (by rintro _ rfl; exact ⟨isObj_ne_null hv, hi⟩)
    simp [call, this, given]
  | didSave h =>
    have := params_reads h fun v hv => ⟨isObj_ne_null hv, docPtr_reads hv none⟩
    simp [call, this]
  | didClose h =>
    have := params_reads h fun v hv => ⟨isObj_ne_null hv, docPtr_reads hv none⟩
    simp [call, this, given]
  | executeCommand h =>
    obtain ⟨name, h1, h2⟩ := execute_reads h
    simp [call, h1, h2]
  | query hq h => exact query_reads hq h
  | diagnostic h =>
    have := params_reads h fun v hv => ⟨isObj_ne_null hv, docPtr_reads hv none⟩
    simp [call, this, given]
  | «initialize» h =>
    obtain ⟨v, hv, h⟩ := h.exact
    obtain ⟨i, hi⟩ := init_reads hv
    have := params_reads (d := init) h (by rintro _ rfl; exact ⟨isObj_ne_null hv, hi⟩)
    simp [call, this, given]
  | unknownCommand h hn =>
    have := params_reads h fun v hv => ⟨isObj_ne_null hv, command_reads hv []⟩
    simp only [commands, List.mem_cons, List.not_mem_nil, or_false, not_or] at hn
    simp [call, this, commandArgs, hn]
  | unknown hn h0 =>
    simp only [methods, List.map_cons, List.map_nil, List.cons_append, List.nil_append, List.mem_cons, List.not_mem_nil, or_false, not_or] at hn
    simp [call, hn]

theorem iface_null (number : Bytes → Option Bytes) (old : Json) : iface number old .null = some .null := rfl

theorem header_reads {number : Bytes → Option Bytes} (hn : Faithful number) {ms : List (Bytes × Json)} {id : Json} {method : Bytes}
    (h1 : Has ms b!"jsonrpc" (IsStr b!"2.0")) (h2 : IsId ms id) (h3 : Has ms b!"method" (IsStr method)) (h4 : Lacks ms b!"result")
    (h5 : Lacks ms b!"error") : header number {} (.obj ms) = some { jsonrpc := b!"2.0", id := id, method := method } := by
  obtain ⟨v1, e1, o1, p1⟩ := has_pick h1 (f := b!"jsonrpc") (by decide) rfl
  obtain ⟨v3, e3, o3, p3⟩ := has_pick h3 (f := b!"method") (by decide) rfl
  obtain ⟨e4, o4⟩ := lacks_pick h4 (f := b!"result") (by decide) rfl
  obtain ⟨e5, o5⟩ := lacks_pick h5 (f := b!"error") (by decide) rfl
  have key : Once ms b!"id" ∧ ∀ h : Header, h.id = .null →
      fill ms h (b!"id", fun h j => (iface number h.id j).map fun v => { h with id := v }) = some { h with id := id } := by
    cases h2 with
    | none h =>
      obtain ⟨e, o⟩ := lacks_pick h (f := b!"id") (by decide) rfl
      exact ⟨o, fun h h0 => by cases h; cases h0; simp only [fill, e]⟩
    | str h =>
      obtain ⟨v, e, o, rfl⟩ := has_pick h (f := b!"id") (by decide) rfl
      exact ⟨o, fun h h0 => by simp only [fill, e]; rfl⟩
    | num h hs hl hu =>
      obtain ⟨v, e, o, rfl⟩ := has_pick h (f := b!"id") (by decide) rfl
      exact ⟨o, fun h h0 => by simp only [fill, e, iface, any, hn _ _ hs hl hu]; rfl⟩
  show members _ _ _ = _
  rw [members_eq (header_table number) ms _ (by unfold headerFields; all_once; exact ⟨o1, key.1, o3, o4, o5⟩)]
  unfold headerFields
  simp only [List.foldlM_cons, List.foldlM_nil]
  have : fill ms ({} : Header) (b!"jsonrpc", fun h j => (string h.jsonrpc j).map fun v => { h with jsonrpc := v }) = some { jsonrpc := b!"2.0" } := by
    simp only [fill, e1, string_reads p1]; rfl
  rw [this]
  show ((fill ms _ _).bind _) = _
  rw [key.2 _ rfl]
  simp only [fill, e3, e4, e5, string_reads p3]
  rfl

theorem calls_method {c : Lsp.Call} {method : Bytes} {ms : List (Bytes × Json)} (h : Calls c method ms) : method ≠ [] := by
  cases h with
  | unknown _ h => exact h
  | query hq _ => cases hq <;> simp
  | _ => simp

theorem message_reads {number : Bytes → Option Bytes} (hn : Faithful number) {n : Nat} {s : Bytes} {j id : Json} {c : Lsp.Call}
    (h : Spells n s j) (hd : n ≤ 10000) (ha : Asks j id c) : message number s = some { id := id.text, call := c } := by
  obtain ⟨ms, method, rfl, h1, h2, h3, h4, h5, h6⟩ := ha
  unfold message
  rw [parse_complete h hd]
  dsimp only
  rw [header_reads hn h1 h2 h3 h4 h5]
  simp [present, calls_method h6, call_reads h6]

theorem has_mem {ms : List (Bytes × Json)} {k : Bytes} {P : Json → Prop} (h : Has ms k P) : ∃ v, (k, v) ∈ ms ∧ P v := by
  obtain ⟨a, v, b, rfl, -, -, h⟩ := h
  exact ⟨v, by simp, h⟩

theorem asks_id {j id : Json} {c : Lsp.Call} (h : Asks j id c) (hj : Proper j) : Proper id := by
  obtain ⟨ms, method, rfl, -, h2, -⟩ := h
  cases hj with
  | obj _ hm =>
    cases h2 with
    | none _ => exact .null
    | str h => obtain ⟨v, hv, rfl⟩ := has_mem h; exact hm _ hv
    | num h _ _ _ => obtain ⟨v, hv, rfl⟩ := has_mem h; exact hm _ hv

end Teal.WireSpec
