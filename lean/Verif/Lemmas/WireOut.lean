import Verif.Lemmas.MessageText
import Verif.Spec.WireOut
import Verif.Model.WireOut
import Verif.Lemmas.Wire3

/-!
# Lemmas: what the language server sends
-/

namespace Teal.WireSpec

open Teal Teal.Spec Teal.JsonSpec Teal.Wire

theorem lacks_of {ms : List (Bytes × Json)} {k : Bytes} (hk : Ascii k) (h : (ms.all fun m => !Wire.equalFold k m.1) = true) : Lacks ms k := by
  intro m hm ha
  have := List.all_eq_true.1 h m hm
  rw [(alike_iff _ _ hk).2 ha] at this
  cases this

theorem has_find {ms : List (Bytes × Json)} {k : Bytes} {v : Json} {P : Json → Prop} (hk : Ascii k)
    (h : (ms.filter fun m => Wire.equalFold k m.1) = [(k, v)]) (hv : P v) : Has ms k P := by
  induction ms with
  | nil => cases h
  | cons m ms ih =>
    rw [List.filter_cons] at h
    split at h
    · rename_i hm
      injection h with h1 h2
      subst h1
      refine ⟨[], v, ms, rfl, (fun m hm => by cases hm), ?_, hv⟩
      intro m hm ha
      have : m ∈ ms.filter fun m => Wire.equalFold k m.1 := List.mem_filter.2 ⟨hm, (alike_iff _ _ hk).2 ha⟩
      rw [h2] at this
      cases this
    · rename_i hm
      obtain ⟨a, v, b, rfl, h2, h3, h4⟩ := ih h
      refine ⟨m :: a, v, b, rfl, ?_, h3, h4⟩
      intro x hx
      rcases List.mem_cons.1 hx with rfl | hx
      · intro ha; exact hm ((alike_iff _ _ hk).2 ha)
      · exact h2 x hx

theorem isArr_map {α : Type} {P : α → Json → Prop} {f : α → Json} (xs : List α) (h : ∀ x ∈ xs, P x (f x)) : IsArr (xs.map P) (.arr (xs.map f)) := by
  induction xs with
  | nil => exact .nil
  | cons x xs ih => exact .cons (h x (by simp)) (ih fun y hy => h y (by simp [hy]))

theorem num_integer (i : Int) : Integer i (num i) := by
  refine ⟨_, rfl, ?_⟩
  cases i with
  | ofNat n => exact .inl ⟨n, rfl, formatUint_decimal n⟩
  | negSucc n => exact .inr ⟨n + 1, formatUint (n + 1), by omega, formatUint_decimal _, rfl⟩

theorem sees_pos (p : Lsp.Pos) : SeesPos p (posOut p) :=
  ⟨_, rfl, has_find (by decide) rfl (num_integer _), has_find (by decide) rfl (num_integer _)⟩

theorem sees_range (r : Lsp.Rg) : SeesRange r (rangeOut r) :=
  ⟨_, rfl, has_find (by decide) rfl (sees_pos _), has_find (by decide) rfl (sees_pos _)⟩

theorem sees_edit (e : Lsp.TextEdit) : SeesEdit e (editOut e) :=
  ⟨_, rfl, has_find (by decide) rfl (sees_range _), has_find (by decide) rfl rfl⟩

theorem num_int {i : Int} (h : -2 ^ 63 ≤ i ∧ i < 2 ^ 63) : IsInt i (num i) := by
  obtain ⟨s, h1, h2⟩ := num_integer i
  exact ⟨s, h1, h2, h⟩

theorem markup_sees {k : Bytes} (h : k = b!"plaintext" ∨ k = b!"markdown") (s : Bytes) : Markup (markup k s) := by
  refine ⟨_, rfl, has_find (by decide) rfl ?_, has_find (by decide) rfl ⟨_, rfl⟩⟩
  rcases h with rfl | rfl
  · exact .inl rfl
  · exact .inr rfl

theorem details_sees (a b : Bytes) : IsObj (fun ds => Opt ds b!"detail" Str ∧ Opt ds b!"description" Str) (details a b) := by
  refine ⟨_, rfl, ?_⟩
  unfold nonempty
  split <;> split
  · exact ⟨.inl (lacks_of (by decide) rfl), .inl (lacks_of (by decide) rfl)⟩
  · exact ⟨.inl (lacks_of (by decide) rfl), .inr (has_find (by decide) rfl ⟨_, rfl⟩)⟩
  · exact ⟨.inr (has_find (by decide) rfl ⟨_, rfl⟩), .inl (lacks_of (by decide) rfl)⟩
  · exact ⟨.inr (has_find (by decide) rfl ⟨_, rfl⟩), .inr (has_find (by decide) rfl ⟨_, rfl⟩)⟩

/-- Solves that a member is absent, or there with a value whose kind is left. -/
macro "opt" h:term : tactic => `(tactic| first | exact .inl (lacks_of (by decide) rfl) | exact .inr (has_find (by decide) rfl $h))

theorem sees_completion (t : Texts) (c : Lsp.Completion) : SeesCompletion c (completionOut t c) := by
  cases c with
  | snippet name =>
    refine ⟨_, rfl, ?_⟩
    unfold nonempty
    split <;> split <;>
    · refine ⟨has_find (by decide) rfl rfl, .inl (lacks_of (by decide) rfl), .inr (has_find (by decide) rfl ⟨15, by decide, by decide, num_integer _⟩),
        ?_, .inl (lacks_of (by decide) rfl), ?_, .inr (has_find (by decide) rfl (.inr (num_integer 2))), fun v h => (by cases h)⟩
      · opt ⟨_, rfl⟩
      · opt ⟨_, rfl⟩
  | op name =>
    refine ⟨_, rfl, ?_⟩
    unfold nonempty
    split <;>
    · refine ⟨has_find (by decide) rfl rfl, .inr (has_find (by decide) rfl (details_sees _ _)),
        .inr (has_find (by decide) rfl ⟨25, by decide, by decide, num_integer _⟩), .inl (lacks_of (by decide) rfl),
        .inr (has_find (by decide) rfl (.inr (markup_sees (.inr rfl) _))), ?_, ?_, fun v h => (by cases h)⟩
      · opt ⟨_, rfl⟩
      · opt (.inr (num_integer 2))
  | arg v =>
    refine ⟨_, rfl, ?_⟩
    have hdet : ∀ s, s ≠ [] → IsObj (fun ds => Has ds b!"detail" (IsStr s)) (details s []) := by
      intro s hs
      refine ⟨_, rfl, ?_⟩
      unfold nonempty
      rw [if_neg hs]
      exact has_find (by decide) rfl rfl
    have hmark : ∀ s, IsObj (fun ds => Has ds b!"value" (IsStr s)) (markup b!"markdown" s) := fun s =>
      ⟨_, rfl, has_find (by decide) rfl rfl⟩
    split
    · rename_i n hn
      refine ⟨has_find (by decide) rfl rfl, .inr (has_find (by decide) rfl (details_sees _ _)), .inl (lacks_of (by decide) rfl),
        .inl (lacks_of (by decide) rfl), .inr (has_find (by decide) rfl (.inr (markup_sees (.inr rfl) _))), .inl (lacks_of (by decide) rfl),
        .inl (lacks_of (by decide) rfl), ?_⟩
      intro v' h
      cases h
      refine ⟨fun m hm => ?_, fun h => (by rw [hn] at h; cases h)⟩
      rw [hn] at hm; cases hm
      exact ⟨_, formatUint_decimal n, has_find (by decide) rfl (hdet _ (by simp))⟩
    · rename_i hn
      split
      · rename_i hs
        refine ⟨has_find (by decide) rfl rfl, .inl (lacks_of (by decide) rfl), .inl (lacks_of (by decide) rfl),
          .inl (lacks_of (by decide) rfl), .inr (has_find (by decide) rfl (.inr (markup_sees (.inr rfl) _))), .inl (lacks_of (by decide) rfl),
          .inl (lacks_of (by decide) rfl), ?_⟩
        intro v' h
        cases h
        refine ⟨fun m hm => (by rw [hn] at hm; cases hm), fun _ => ⟨?_, ?_, fun _ => lacks_of (by decide) rfl⟩⟩
        · exact has_find (by decide) rfl (hmark _)
        · intro a r h
          unfold sigDetail at hs
          rw [h] at hs
          simp [protoText] at hs
      · rename_i hs
        refine ⟨has_find (by decide) rfl rfl, .inr (has_find (by decide) rfl (details_sees _ _)), .inl (lacks_of (by decide) rfl),
          .inl (lacks_of (by decide) rfl), .inr (has_find (by decide) rfl (.inr (markup_sees (.inr rfl) _))), .inl (lacks_of (by decide) rfl),
          .inl (lacks_of (by decide) rfl), ?_⟩
        intro v' h
        cases h
        refine ⟨fun m hm => (by rw [hn] at hm; cases hm), fun _ => ⟨?_, ?_, ?_⟩⟩
        · exact has_find (by decide) rfl (hmark _)
        · intro a r h
          refine ⟨_, _, formatUint_decimal a, formatUint_decimal r, has_find (by decide) rfl ?_⟩
          have : chSpace :: sigDetail v = b!" in: " ++ formatUint a ++ b!", out: " ++ formatUint r := by
            unfold sigDetail
            rw [h]
            rfl
          rw [this]
          exact hdet _ (by simp)
        · intro h
          unfold sigDetail at hs
          rw [h] at hs
          exact absurd rfl hs
  | empty =>
    exact ⟨_, rfl, has_find (by decide) rfl rfl, .inl (lacks_of (by decide) rfl), .inl (lacks_of (by decide) rfl), .inl (lacks_of (by decide) rfl),
      .inl (lacks_of (by decide) rfl), .inl (lacks_of (by decide) rfl), .inl (lacks_of (by decide) rfl), fun v h => (by cases h)⟩

theorem range_is {r : Lsp.Rg} (h : ∀ i ∈ [r.start.line, r.start.character, r.stop.line, r.stop.character], -2 ^ 63 ≤ i ∧ i < 2 ^ 63) :
    IsRange r (rangeOut r) := by
  have hp : ∀ p : Lsp.Pos, (-2 ^ 63 ≤ p.line ∧ p.line < 2 ^ 63) → (-2 ^ 63 ≤ p.character ∧ p.character < 2 ^ 63) → IsPos p (posOut p) := fun p h1 h2 =>
    ⟨_, rfl, has_find (by decide) rfl (num_int h1), has_find (by decide) rfl (num_int h2)⟩
  exact ⟨_, rfl, has_find (by decide) rfl (hp _ (h _ (by simp)) (h _ (by simp))), has_find (by decide) rfl (hp _ (h _ (by simp)) (h _ (by simp)))⟩

theorem command_is {c : Lsp.Command} (h : Fits c) : IsCommand c (commandOut c).1 (commandOut c).2 := by
  cases c with
  | versionUpdate uri v => exact .versionUpdate (has_find (by decide) rfl rfl) (has_find (by decide) rfl rfl) (formatUint_decimal v) h
  | valueReplace uri r v => exact .valueReplace (has_find (by decide) rfl rfl) (has_find (by decide) rfl (range_is h)) (has_find (by decide) rfl rfl)
  | lineRemove uri l => exact .lineRemove (has_find (by decide) rfl rfl) (has_find (by decide) rfl (num_int h))
  | labelRemove uri n => exact .labelRemove (has_find (by decide) rfl rfl) (has_find (by decide) rfl rfl)
  | labelCreate uri n => exact .labelCreate (has_find (by decide) rfl rfl) (has_find (by decide) rfl rfl)

theorem sees_action {a : Lsp.Action} (h : Fits a.command) : SeesAction a (actionOut a) :=
  ⟨_, rfl, has_find (by decide) rfl rfl, has_find (by decide) rfl rfl,
    has_find (by decide) rfl ⟨_, rfl, has_find (by decide) rfl rfl, _, has_find (by decide) rfl rfl,
      has_find (by decide) rfl ⟨_, rfl, command_is h⟩⟩, lacks_of (by decide) rfl, lacks_of (by decide) rfl⟩

theorem sees_diag (t : Texts) (d : Lsp.LspDiag) : SeesDiag d (diagOut t d) :=
  ⟨_, rfl, has_find (by decide) rfl (sees_range _), has_find (by decide) rfl (num_integer _), has_find (by decide) rfl ⟨_, rfl,
    Classical.byCases .inl fun h => .inr (tells_text _ h)⟩⟩

theorem sees_lens (l : Int × Nat) : SeesLens l (lensOut l) :=
  ⟨_, rfl, has_find (by decide) rfl ⟨_, sees_range _, rfl, rfl⟩,
    has_find (by decide) rfl ⟨_, rfl, has_find (by decide) rfl ⟨_, formatUint_decimal _, rfl⟩, has_find (by decide) rfl ⟨_, rfl⟩⟩⟩

theorem sees_hint (h : Lsp.Pos × Bytes) : SeesHint h (hintOut h) :=
  ⟨_, rfl, has_find (by decide) rfl (sees_pos _), has_find (by decide) rfl rfl, has_find (by decide) rfl (.inr (num_integer 2)),
    .inr (has_find (by decide) rfl ⟨_, rfl⟩)⟩

theorem sees_signature (t : Texts) (op : Bytes) (active : Int) : SeesSignature active (signatureOut t op active) := by
  refine ⟨_, rfl, has_find (by decide) rfl (.cons ⟨_, rfl, ?_⟩ .nil)⟩
  have hp : Arr (IsObj fun ps => Has ps b!"label" Str) (.arr ((opArgNames op).map fun a => .obj [(b!"label", .str a)])) := by
    refine ⟨_, rfl, ?_⟩
    intro v hv
    obtain ⟨a, _, rfl⟩ := List.mem_map.1 hv
    exact ⟨_, rfl, has_find (by decide) rfl ⟨_, rfl⟩⟩
  split <;> split <;>
  · refine ⟨has_find (by decide) rfl ⟨_, rfl⟩, ?_, ?_, has_find (by decide) rfl (num_integer _)⟩
    · opt (.inr (markup_sees (.inr rfl) _))
    · opt hp

theorem sees_capabilities (st ih : Bool) : SeesCapabilities st ih (capabilitiesOut st ih) := by
  have hs : ∀ ss : List Bytes, IsArr (ss.map IsStr) (.arr (ss.map .str)) := fun ss => isArr_map ss fun _ _ => rfl
  refine ⟨_, rfl, ?_⟩
  cases st <;>
  · refine ⟨has_find (by decide) rfl (num_integer 1),
      has_find (by decide) rfl ⟨_, rfl, has_find (by decide) rfl rfl, has_find (by decide) rfl rfl⟩,
      has_find (by decide) rfl ⟨_, rfl, has_find (by decide) rfl (hs [b!" "])⟩, has_find (by decide) rfl rfl, has_find (by decide) rfl rfl,
      has_find (by decide) rfl ⟨_, rfl, has_find (by decide) rfl ⟨_, ?_, hs [b!"teal.label.create", b!"teal.label.remove",
        b!"teal.value.replace", b!"teal.line.remove", b!"teal.version.update"]⟩⟩,
      has_find (by decide) rfl ⟨_, rfl, has_find (by decide) rfl rfl⟩, has_find (by decide) rfl rfl, ?_,
      has_find (by decide) rfl rfl, has_find (by decide) rfl rfl, has_find (by decide) rfl rfl, has_find (by decide) rfl ⟨_, rfl, trivial⟩,
      has_find (by decide) rfl rfl, has_find (by decide) rfl rfl, has_find (by decide) rfl ⟨_, rfl, trivial⟩⟩
    · decide
    · first
      | exact lacks_of (by decide) rfl
      | exact has_find (by decide) rfl ⟨_, rfl, has_find (by decide) rfl ⟨_, rfl, has_find (by decide) rfl (hs tokenTypes), has_find (by decide) rfl (hs [])⟩,
          .inr (has_find (by decide) rfl (.inl rfl)), has_find (by decide) rfl rfl⟩

theorem sees_result (t : Texts) {r : Lsp.Result} (h : Something r) (hf : ∀ cs, r = .codeActions cs → ∀ c ∈ cs, Fits c.command) :
    SeesResult r (resultOut t r) := by
  cases r with
  | emptyList => exact (h.1 rfl).elim
  | emptyObject => exact (h.2 rfl).elim
  | prepareRename r p => exact ⟨_, rfl, has_find (by decide) rfl (sees_range _), has_find (by decide) rfl rfl⟩
  | workspaceEdit uri es =>
    exact ⟨_, rfl, has_find (by decide) rfl ⟨_, rfl, isArr_map es fun e _ => sees_edit e⟩, lacks_of (by decide) rfl⟩
  | inlineValues vs =>
    simp only [resultOut, SeesResult]
    refine isArr_map (P := fun v => IsObj fun ms => Has ms b!"range" (SeesRange v.1) ∧ Has ms b!"text" (IsStr v.2)) vs ?_
    intro v _
    exact ⟨_, rfl, has_find (by decide) rfl (sees_range _), has_find (by decide) rfl rfl⟩
  | codeLenses ls =>
    show _ ∨ _
    simp only [resultOut]
    split
    · rename_i e; exact .inl ⟨e, rfl⟩
    · exact .inr (isArr_map ls fun l _ => sees_lens l)
  | inlayHints hs => exact isArr_map hs fun l _ => sees_hint l
  | completions cs => exact isArr_map cs fun l _ => sees_completion t l
  | hover d => exact ⟨_, rfl, has_find (by decide) rfl (markup_sees (.inl rfl) _), .inr (has_find (by decide) rfl ⟨_, sees_range _⟩)⟩
  | locations ls =>
    simp only [resultOut, SeesResult]
    refine isArr_map (P := fun l => IsObj fun ms => Has ms b!"uri" (IsStr l.1) ∧ Has ms b!"range" (SeesRange l.2)) ls ?_
    intro v _
    exact ⟨_, rfl, has_find (by decide) rfl rfl, has_find (by decide) rfl (sees_range _)⟩
  | textEdits es => exact isArr_map es fun l _ => sees_edit l
  | signature op a => exact sees_signature t op a
  | codeActions cs => exact isArr_map cs fun c hc => sees_action (hf cs rfl c hc)
  | diagnostics ds => exact ⟨_, rfl, has_find (by decide) rfl rfl, has_find (by decide) rfl (isArr_map ds fun d _ => sees_diag t d)⟩
  | highlights hs => exact isArr_map (P := fun h => IsObj fun ms => Has ms b!"range" (SeesRange h) ∧ Has ms b!"kind" (Integer 1)) hs (by
      intro h _; exact ⟨_, rfl, has_find (by decide) rfl (sees_range _), has_find (by decide) rfl (num_integer 1)⟩)
  | symbols ss =>
    simp only [resultOut, SeesResult]
    refine isArr_map (P := fun s => IsObj fun ms => Has ms b!"name" (IsStr s.1) ∧ Has ms b!"kind" (Integer 6) ∧
      Has ms b!"range" (SeesRange s.2) ∧ Has ms b!"selectionRange" (SeesRange s.2)) ss ?_
    intro v _
    exact ⟨_, rfl, has_find (by decide) rfl rfl, has_find (by decide) rfl (num_integer 6), has_find (by decide) rfl (sees_range _),
      has_find (by decide) rfl (sees_range _)⟩
  | semanticTokens data => exact ⟨_, rfl, has_find (by decide) rfl (isArr_map (P := fun n : Nat => Integer n) data fun n _ => num_integer n)⟩
  | capabilities st ih => exact ⟨_, rfl, has_find (by decide) rfl (sees_capabilities st ih)⟩

theorem sees_sent (t : Texts) (id : Json) {s : Lsp.Sent} (h : ∀ i r, s = .reply i r → Something r)
    (hf : ∀ i cs, s = .reply i (.codeActions cs) → ∀ c ∈ cs, Fits c.command) : Sees id s (sentOut t id s) := by
  cases s with
  | reply i r =>
    exact ⟨_, rfl, has_find (by decide) rfl rfl, has_find (by decide) rfl rfl,
      has_find (by decide) rfl (sees_result t (h i r rfl) fun cs e => hf i cs (by rw [e])), lacks_of (by decide) rfl, lacks_of (by decide) rfl⟩
  | fail i n =>
    exact ⟨_, rfl, has_find (by decide) rfl rfl, has_find (by decide) rfl rfl,
      has_find (by decide) rfl ⟨_, rfl, has_find (by decide) rfl (num_integer 1), has_find (by decide) rfl ⟨_, rfl⟩⟩, lacks_of (by decide) rfl,
      lacks_of (by decide) rfl⟩
  | applyEdit n label uri es =>
    refine ⟨_, rfl, has_find (by decide) rfl rfl, has_find (by decide) rfl rfl, has_find (by decide) rfl rfl, has_find (by decide) rfl ⟨_, rfl, ?_⟩,
      lacks_of (by decide) rfl, lacks_of (by decide) rfl⟩
    unfold nonempty
    split <;>
    · refine ⟨?_, has_find (by decide) rfl ⟨_, rfl, lacks_of (by decide) rfl, has_find (by decide) rfl (.cons ⟨_, rfl, ?_, ?_⟩ .nil)⟩⟩
      · opt rfl
      · exact has_find (by decide) rfl ⟨_, rfl, has_find (by decide) rfl rfl, has_find (by decide) rfl rfl⟩
      · exact has_find (by decide) rfl (isArr_map es fun e _ => sees_edit e)

theorem ascii_utf8 {s : Bytes} (h : ∀ c ∈ s, c < 128) : Utf8 s := by
  induction s with
  | nil => exact .nil
  | cons c s ih => exact utf8_single (h c (by simp)) (ih fun x hx => h x (by simp [hx]))

theorem utf8_append {a b : Bytes} (ha : Utf8 a) (hb : Utf8 b) : Utf8 (a ++ b) := by
  induction ha with
  | nil => exact hb
  | cons hn _ ih => rw [List.append_assoc]; exact .cons hn ih

theorem decimal_number {n : Nat} {s : Bytes} (h : DecimalOf n s) :
    (s = b!"0" ∨ JsonDigits s ∧ s.head? ≠ some 48) ∧ ∀ c ∈ s, c < 128 := by
  obtain ⟨ds, ⟨h1, h2⟩, h3, h4, h5⟩ := h
  have hd : ∀ c ∈ s, 48 ≤ c.toNat ∧ c.toNat ≤ 57 := by
    intro c hc
    have : digitValue c ∈ s.map digitValue := List.mem_map_of_mem hc
    rw [h1] at this
    obtain ⟨d, hd, e⟩ := List.mem_map.1 this
    have hb : ∀ c : UInt8, ∀ d : Nat, d < 10 → some d = digitValue c → 48 ≤ c.toNat ∧ c.toNat ≤ 57 := by
      intro c
      have : ∀ c : UInt8, ∀ d ∈ List.range 10, some d = digitValue c → 48 ≤ c.toNat ∧ c.toNat ≤ 57 := by
        apply forall_byte; decide +kernel
      exact fun d hd => this c d (List.mem_range.2 hd)
    exact hb c d (h2 d hd) e
  refine ⟨?_, fun c hc => by have := hd c hc; rw [UInt8.lt_iff_toNat_lt]; exact Nat.lt_of_le_of_lt this.2 (by decide)⟩
  by_cases h0 : s.head? = some 48
  · exact .inl (h5 h0).2
  · exact .inr ⟨⟨h4, hd⟩, h0⟩

theorem num_proper (i : Int) : Proper (num i) := by
  obtain ⟨s, e, h⟩ := num_integer i
  rw [e]
  rcases h with ⟨n, -, h⟩ | ⟨n, t, -, h, rfl⟩
  · exact .num ⟨[], s, [], [], by simp, .inl rfl, (decimal_number h).1, .inl rfl, .inl rfl⟩
  · exact .num ⟨b!"-", t, [], [], by simp, .inr rfl, (decimal_number h).1, .inl rfl, .inl rfl⟩

theorem uint_proper (n : Nat) : Proper (.num (formatUint n)) := num_proper n

theorem proper_cons {k : Bytes} {v : Json} {ms : List (Bytes × Json)} (hk : Utf8 k) (hv : Proper v) (h : Proper (.obj ms)) : Proper (.obj ((k, v) :: ms)) := by
  cases h with
  | obj h1 h2 =>
    refine .obj ?_ ?_
    · intro m hm
      rcases List.mem_cons.1 hm with rfl | hm
      · exact hk
      · exact h1 m hm
    · intro m hm
      rcases List.mem_cons.1 hm with rfl | hm
      · exact hv
      · exact h2 m hm

theorem proper_nil : Proper (.obj []) := .obj (fun m hm => by cases hm) (fun m hm => by cases hm)

theorem proper_append {a b : List (Bytes × Json)} (ha : Proper (.obj a)) (hb : Proper (.obj b)) : Proper (.obj (a ++ b)) := by
  cases ha with
  | obj h1 h2 =>
    cases hb with
    | obj h3 h4 =>
      refine .obj ?_ ?_
      · intro m hm
        rcases List.mem_append.1 hm with hm | hm
        · exact h1 m hm
        · exact h3 m hm
      · intro m hm
        rcases List.mem_append.1 hm with hm | hm
        · exact h2 m hm
        · exact h4 m hm

theorem proper_map {α : Type} (xs : List α) (f : α → Json) (h : ∀ x ∈ xs, Proper (f x)) : Proper (.arr (xs.map f)) := by
  refine .arr ?_
  intro v hv
  obtain ⟨x, hx, rfl⟩ := List.mem_map.1 hv
  exact h x hx

theorem proper_single {v : Json} (h : Proper v) : Proper (.arr [v]) := .arr (fun w hw => by rw [List.mem_singleton.1 hw]; exact h)

/-- Solves that an object with ASCII names is proper, up to the values. -/
macro "members" : tactic => `(tactic| (
  repeat' first | exact proper_nil | refine proper_cons (ascii_utf8 (by decide)) ?_ ?_ | refine proper_append ?_ ?_
  all_goals try first | exact num_proper _ | exact uint_proper _ | exact .bool _ | exact .null | exact .str (ascii_utf8 (by decide))))

theorem pos_proper (p : Lsp.Pos) : Proper (posOut p) := by unfold posOut; members

attribute [local irreducible] posOut

theorem range_proper (r : Lsp.Rg) : Proper (rangeOut r) := by unfold rangeOut; members <;> exact pos_proper _

attribute [local irreducible] rangeOut

theorem edit_proper {e : Lsp.TextEdit} (h : Utf8 e.newText) : Proper (editOut e) := by
  unfold editOut; members
  · exact range_proper _
  · exact .str h

theorem markup_proper {k s : Bytes} (hk : Utf8 k) (hs : Utf8 s) : Proper (markup k s) := by
  unfold markup; members
  · exact .str hk
  · exact .str hs

attribute [local irreducible] markup

theorem nonempty_proper {k s : Bytes} (hk : Utf8 k) (hs : Utf8 s) : Proper (.obj (nonempty k s)) := by
  unfold nonempty
  split
  · exact proper_nil
  · exact proper_cons hk (.str hs) proper_nil

attribute [local irreducible] nonempty

theorem details_proper {a b : Bytes} (ha : Utf8 a) (hb : Utf8 b) : Proper (details a b) := by
  unfold details; members
  · exact nonempty_proper (ascii_utf8 (by decide)) ha
  · exact nonempty_proper (ascii_utf8 (by decide)) hb

attribute [local irreducible] details

theorem utf8_of_bool {s : Bytes} (h : (s.all (· < 128)) = true) : Utf8 s := ascii_utf8 fun c hc => by simpa using List.all_eq_true.1 h c hc

theorem ops_ascii : ∀ e ∈ opsList, (e.fullSig.all (· < 128)) = true ∧ (e.argsSig.all (· < 128)) = true ∧ (e.insert.all (· < 128)) = true ∧
    ∀ a ∈ e.docArgs, (a.name.all (· < 128)) = true := by decide +kernel

theorem opText_utf8 {name : Bytes} {f : OpEntry → Bytes} (h : ∀ e ∈ opsList, Utf8 (f e)) : Utf8 (opText name f) := by
  unfold opText
  split
  · next e he => exact h e (List.mem_reverse.1 (List.mem_of_find?_eq_some he))
  · exact .nil

theorem snippet_utf8 (name : Bytes) : Utf8 (snippetTexts name).1 ∧ Utf8 (snippetTexts name).2 := by
  unfold snippetTexts
  split
  · exact ⟨utf8_of_bool rfl, utf8_of_bool (by decide +kernel)⟩
  · split
    · exact ⟨utf8_of_bool rfl, utf8_of_bool rfl⟩
    · exact ⟨.nil, .nil⟩

theorem sigDetail_utf8 (v : ArgVal) : Utf8 (sigDetail v) := by
  have hd : ∀ n, Utf8 (formatUint n) := fun n => ascii_utf8 (decimal_number (formatUint_decimal n)).2
  unfold sigDetail protoText
  split
  · exact utf8_append (utf8_append (utf8_append (utf8_of_bool rfl) (hd _)) (utf8_of_bool rfl)) (hd _)
  · exact .nil

theorem completion_proper {t : Texts} (ht : CleanTexts t) {c : Lsp.Completion} (h : Utf8 (label c)) (hd : Utf8 (comment c)) : Proper (completionOut t c) := by
  cases c with
  | snippet name =>
    simp only [completionOut]; members
    · exact .str h
    · exact nonempty_proper (ascii_utf8 (by decide)) (snippet_utf8 _).1
    · exact nonempty_proper (ascii_utf8 (by decide)) (snippet_utf8 _).2
  | op name =>
    simp only [completionOut]; members
    · exact .str h
    · exact details_proper (utf8_single (by decide) (opText_utf8 fun e he => utf8_of_bool (ops_ascii e he).2.1)) (utf8_single (by decide) (opText_utf8 fun e _ => ascii_utf8 (decimal_number (formatUint_decimal _)).2))
    · exact markup_proper (ascii_utf8 (by decide)) (ht.opDoc _)
    · exact nonempty_proper (ascii_utf8 (by decide)) (opText_utf8 fun e he => utf8_of_bool (ops_ascii e he).2.2.1)
    · split <;> members
  | arg v =>
    simp only [completionOut]; members
    · exact .str h
    · split
      · members
        exact details_proper (utf8_append (ascii_utf8 (by decide)) (ascii_utf8 (decimal_number (formatUint_decimal _)).2)) .nil
      · split <;> members
        exact details_proper (utf8_single (by decide) (sigDetail_utf8 _)) .nil
    · refine markup_proper (ascii_utf8 (by decide)) ?_
      split
      · exact hd
      · exact ht.argDoc _
  | empty => simp only [completionOut]; members

theorem command_proper {c : Lsp.Command} (h : ∀ x ∈ commandStrings c, Utf8 x) : Proper (commandOut c).2 := by
  cases c <;> simp only [commandOut] <;> members <;> first | exact range_proper _ | exact .str (h _ (by simp [commandStrings]))

theorem command_ascii (c : Lsp.Command) : Utf8 (commandOut c).1 := by cases c <;> exact ascii_utf8 (by simp only [commandOut]; decide)

theorem action_proper {a : Lsp.Action} (h : ∀ x ∈ a.title :: a.name :: commandStrings a.command, Utf8 x) : Proper (actionOut a) := by
  unfold actionOut; members
  · exact .str (h _ (by simp))
  · exact .str (h _ (by simp))
  · exact .str (command_ascii _)
  · exact proper_single (command_proper fun x hx => h x (by simp [hx]))

theorem text_utf8 {operand : Bytes} (ho : Utf8 operand) {k : DiagKind} (h : ∀ x ∈ kindStrings k, Utf8 x) : Utf8 (k.text operand) := by
  have hq : ∀ {p n : Bytes}, (p.all (· < 128)) = true → Utf8 n → Utf8 (p ++ n ++ b!"\"") := fun hp hn =>
    utf8_append (utf8_append (utf8_of_bool hp) hn) (utf8_of_bool rfl)
  cases k with
  | lex msg => cases msg <;> exact utf8_of_bool rfl
  | parse why =>
    cases why <;> first
      | exact ho
      | exact utf8_of_bool rfl
      | exact utf8_append (utf8_of_bool rfl) (h _ (by simp [kindStrings]))
  | mode m => cases m <;> exact utf8_of_bool rfl
  | version min cur =>
    have hd : ∀ n, Utf8 (formatUint n) := fun n => ascii_utf8 (decimal_number (formatUint_decimal n)).2
    exact utf8_append (utf8_append (utf8_append (utf8_append (utf8_of_bool rfl) (hd _)) (utf8_of_bool rfl)) (hd _)) (utf8_of_bool rfl)
  | lint rule =>
    cases rule <;> first
      | exact utf8_of_bool rfl
      | exact hq rfl (h _ (by simp [kindStrings]))

theorem result_proper {t : Texts} (ht : CleanTexts t) {r : Lsp.Result} (h : ∀ x ∈ resultStrings r, Utf8 x) : Proper (resultOut t r) := by
  cases r with
  | emptyList => exact .arr (fun v hv => by cases hv)
  | emptyObject => exact proper_nil
  | prepareRename r p =>
    simp only [resultOut]; members
    · exact range_proper _
    · exact .str (h _ (by simp [resultStrings]))
  | workspaceEdit uri es =>
    simp only [resultOut]; members
    refine proper_cons (h _ (by simp [resultStrings])) (proper_map es _ fun e he => edit_proper (h _ ?_)) proper_nil
    simp only [resultStrings, List.mem_cons, List.mem_map]
    exact .inr ⟨e, he, rfl⟩
  | inlineValues vs =>
    simp only [resultOut]
    refine proper_map vs _ fun v hv => ?_
    members
    · exact range_proper _
    · exact .str (h _ (List.mem_map_of_mem hv))
  | codeLenses ls =>
    simp only [resultOut]
    split
    · exact .null
    · refine proper_map ls _ fun l _ => ?_
      unfold lensOut; members
      · exact range_proper _
      · exact .str (utf8_append (ascii_utf8 (by decide)) (ascii_utf8 (decimal_number (formatUint_decimal _)).2))
  | inlayHints hs =>
    simp only [resultOut]
    refine proper_map hs _ fun v hv => ?_
    unfold hintOut; members
    · exact pos_proper _
    · exact .str (h _ (List.mem_map_of_mem hv))
  | completions cs => exact proper_map cs _ fun c hc => completion_proper ht (h _ (List.mem_flatMap.2 ⟨c, hc, by simp⟩)) (h _ (List.mem_flatMap.2 ⟨c, hc, by simp⟩))
  | hover d =>
    simp only [resultOut]; members
    · exact markup_proper (ascii_utf8 (by decide)) (ht.hover _)
    · exact range_proper _
  | locations ls =>
    simp only [resultOut]
    refine proper_map ls _ fun v hv => ?_
    members
    · exact .str (h _ (List.mem_map_of_mem hv))
    · exact range_proper _
  | textEdits es => exact proper_map es _ fun e he => edit_proper (h _ (List.mem_map_of_mem he))
  | signature op a =>
    simp only [resultOut, signatureOut]; members
    refine proper_single ?_
    members
    · exact .str (opText_utf8 fun e he => utf8_of_bool (ops_ascii e he).1)
    · split <;> members
      exact markup_proper (ascii_utf8 (by decide)) (ht.fullDoc _)
    · split <;> members
      refine proper_map _ _ fun a ha => ?_
      members
      refine .str ?_
      unfold opArgNames at ha
      split at ha
      · next e he =>
        obtain ⟨x, hx, rfl⟩ := List.mem_map.1 ha
        exact utf8_of_bool ((ops_ascii e (List.mem_reverse.1 (List.mem_of_find?_eq_some he))).2.2.2 x hx)
      · cases ha
  | codeActions cs =>
    exact proper_map cs _ fun c hc => action_proper fun x hx => h x (List.mem_flatMap.2 ⟨c, hc, hx⟩)
  | diagnostics ds =>
    simp only [resultOut]; members
    refine proper_map ds _ fun d hd => ?_
    unfold diagOut; members
    · exact range_proper _
    · exact .str (text_utf8 (ht.operand _) fun x hx => h x (List.mem_flatMap.2 ⟨d, hd, hx⟩))
  | highlights hs =>
    simp only [resultOut]
    refine proper_map hs _ fun v hv => ?_
    members
    exact range_proper _
  | symbols ss =>
    simp only [resultOut]
    refine proper_map ss _ fun v hv => ?_
    members
    · exact .str (h _ (List.mem_map_of_mem hv))
    · exact range_proper _
    · exact range_proper _
  | semanticTokens data =>
    simp only [resultOut]; members
    exact proper_map data _ fun n _ => uint_proper n
  | capabilities st ih =>
    have hs : ∀ ss : List Bytes, (∀ s ∈ ss, ∀ c ∈ s, c < 128) → Proper (.arr (ss.map .str)) := fun ss h =>
      proper_map ss _ fun s hs => .str (ascii_utf8 (h s hs))
    simp only [resultOut, capabilitiesOut]; members
    · exact hs [b!" "] (by decide)
    · exact hs [b!"teal.label.create", b!"teal.label.remove", b!"teal.value.replace", b!"teal.line.remove", b!"teal.version.update"] (by decide)
    · split <;> members
      · exact hs tokenTypes (by decide)
      · exact hs [] (by decide)

theorem sent_proper {t : Texts} (ht : CleanTexts t) {id : Json} (hi : Proper id) {s : Lsp.Sent} (h : ∀ x ∈ sentStrings s, Utf8 x) :
    Proper (sentOut t id s) := by
  cases s with
  | reply i r =>
    simp only [sentOut]; members
    · exact result_proper ht h
    · exact hi
  | fail i n =>
    simp only [sentOut]; members
    · exact .str (utf8_append (ascii_utf8 (by decide)) (h _ (by simp [sentStrings])))
    · exact hi
  | applyEdit n label uri es =>
    simp only [sentOut]; members
    · exact .str (h _ (by simp [sentStrings]))
    · exact nonempty_proper (ascii_utf8 (by decide)) (h _ (by simp [sentStrings]))
    · refine proper_single ?_
      members
      · exact .str (h _ (by simp [sentStrings]))
      · refine proper_map es _ fun e he => edit_proper (h _ ?_)
        simp only [sentStrings, List.mem_cons, List.mem_map]
        exact .inr (.inr (.inr ⟨e, he, rfl⟩))

end Teal.WireSpec
