import Verif.Model.SarifOut
import Verif.Spec.SarifOut
import Verif.Lemmas.Indent
import Verif.Lemmas.DapOut
import Verif.Lemmas.Message
import Verif.Props.Sarif
import Verif.Props.Json

/-!
# C108: the report of the scanner as a JSON text
-/

namespace Teal.Props

open Teal Teal.Spec Teal.JsonSpec Teal.WireSpec Teal.Sarif Teal.SarifSpec

/-- C108: indenting a JSON text does not change what it stands for. -/
theorem C108_indented {tab : Bytes} (ht : Ws tab) {n : Nat} {s : Bytes} {j : Json} (h : Spells n s j) :
    Spells n (Json.indent tab .out false 0 s) j := indent_spells ht h

example : Json.indent b!"\t" .out false 0 b!"{\"a\":[1,{}], \"b\\\"{\":\"x:,\"}" = b!"{\n\t\"a\": [\n\t\t1,\n\t\t{}\n\t],\n\t\"b\\\"{\": \"x:,\"\n}" := by decide +kernel

theorem repaired_unique {s v : Bytes} (h : Repaired s v) : ∀ {w : Bytes}, Repaired s w → v = w := by
  induction h with
  | nil => intro w h; generalize hs : ([] : Bytes) = s at h; cases h with
    | nil => rfl
    | @char n s v hn => obtain ⟨c, t, e, -⟩ := utf8_cons n; rw [e] at hs; cases hs
    | stray => cases hs
  | @char n s v hn _ ih =>
    intro w h
    generalize hs : utf8 n ++ s = x at h
    cases h with
    | nil => obtain ⟨c, t, e, -⟩ := utf8_cons n; rw [e] at hs; cases hs
    | @char m u w hm hu =>
      have h1 := decodeRune_utf8 hn s
      rw [hs, decodeRune_utf8 hm u] at h1
      cases h1
      rw [List.append_cancel_left_eq] at hs
      subst hs
      rw [ih hu]
    | stray hno => exact (hno n s hn hs.symm).elim
  | @stray c s v hno _ ih =>
    intro w h
    generalize hs : c :: s = x at h
    cases h with
    | nil => cases hs
    | @char m u w hm hu => exact (hno m u hm hs).elim
    | stray _ h => cases hs; rw [ih h]

theorem repairedIn_unique {j k : Json} (h : RepairedIn j k) : ∀ {l : Json}, RepairedIn j l → k = l := by
  induction h with
  | null => intro l h; cases h; rfl
  | bool => intro l h; cases h; rfl
  | num => intro l h; cases h; rfl
  | str h => intro l h'; cases h' with | str h' => rw [repaired_unique h h']
  | arrNil => intro l h; cases h; rfl
  | arrCons _ _ ih1 ih2 => intro l h; cases h with | arrCons h1 h2 => rw [ih1 h1]; have := ih2 h2; cases this; rfl
  | objNil => intro l h; cases h; rfl
  | objCons h _ _ ih1 ih2 => intro l h'; cases h' with | objCons h0 h1 h2 => rw [repaired_unique h h0, ih1 h1]; have := ih2 h2; cases this; rfl

theorem repaired_utf8_same {s : Bytes} (h : Utf8 s) : Repaired s s := by
  induction h with
  | nil => exact .nil
  | cons h _ ih => exact .char h ih

theorem repairedIn_map {α : Type} (xs : List α) {f g : α → Json} (h : ∀ x ∈ xs, RepairedIn (f x) (g x)) : RepairedIn (.arr (xs.map f)) (.arr (xs.map g)) := by
  induction xs with
  | nil => exact .arrNil
  | cons x xs ih => exact .arrCons (h x (by simp)) (ih fun y hy => h y (by simp [hy]))

theorem repairedIn_proper {j : Json} (h : JsonSpec.Proper j) : RepairedIn j j := by
  obtain ⟨n, k, h1, -⟩ := text_repairs (proper_numeric h)
  have := repairedIn_same h1 h
  rwa [this] at h1

theorem ascii_same {s : Bytes} (h : ∀ c ∈ s, c < 128) : RepairedIn (.str s) (.str s) := .str (repaired_utf8_same (ascii_utf8 h))

/-- The strings in a report, except for the messages. -/
structure AsciiRun (r : Sarif.Run) : Prop where
  rules : r.rules = rules
  artifacts : ∀ s ∈ r.artifacts, ∀ c ∈ s, c < 128
  results : ∀ x ∈ r.results, (∀ c ∈ x.rule, c < 128) ∧ (∀ c ∈ x.level, c < 128) ∧ ∀ c ∈ x.uri, c < 128

theorem escape_ascii (s : Bytes) : ∀ c ∈ escape s, c < 128 := by
  have h1 : ∀ c : UInt8, shouldEscape c = false → c < 128 := forall_byte (by decide +kernel)
  have h2 : ∀ c : UInt8, upperHex (c / 16) < 128 ∧ upperHex (c % 16) < 128 := forall_byte (by decide +kernel)
  induction s with
  | nil => intro c h; cases h
  | cons b s ih =>
    intro c hc
    unfold escape at hc
    split at hc
    · simp only [List.mem_cons] at hc
      rcases hc with rfl | rfl | rfl | hc
      · decide
      · exact (h2 b).1
      · exact (h2 b).2
      · exact ih c hc
    · rename_i hb
      rcases List.mem_cons.1 hc with rfl | hc
      · exact h1 _ (by simpa using hb)
      · exact ih c hc

theorem fileUri_ascii (s : Bytes) : ∀ c ∈ fileUri s, c < 128 := by
  intro c hc
  unfold fileUri at hc
  rcases List.mem_append.1 hc with hc | hc
  · clear * - hc; revert c; decide
  · exact escape_ascii s c hc

theorem scanLoop_ascii {env : Env} {fs : Files} : ∀ (ps : List Bytes) (run r : Sarif.Run), AsciiRun run → scanLoop env fs run ps = .report r → AsciiRun r := by
  intro ps
  induction ps with
  | nil => intro run r h e; cases e; exact h
  | cons p ps ih =>
    intro run r h e
    rw [scanLoop] at e
    split at e
    · cases e
    split at e
    · cases e
    split at e
    · cases e
    rename_i ab _
    dsimp only at e
    refine ih _ r ?_ e
    refine ⟨h.rules, ?_, ?_⟩
    · intro s hs
      rcases List.mem_append.1 hs with hs | hs
      · exact h.artifacts s hs
      · rw [List.mem_singleton.1 hs]; exact fileUri_ascii ab
    · intro x hx
      rcases List.mem_append.1 hx with hx | hx
      · exact h.results x hx
      · obtain ⟨d, -, rfl⟩ := List.mem_map.1 hx
        refine ⟨?_, ?_, fileUri_ascii ab⟩
        · show ∀ c ∈ ruleId d.1.kind, c < 128
          cases d.1.kind with
          | lint k => cases k <;> simp only [ruleId] <;> decide
          | _ => simp only [ruleId]; decide
        · show ∀ c ∈ level (severity d.1.kind), c < 128
          cases severity d.1.kind <;> decide

theorem scan_ascii {env : Env} {fs : Files} {r : Sarif.Run} (h : scan env fs = .report r) : AsciiRun r := by
  unfold scan at h
  split at h
  · cases h
  · refine scanLoop_ascii _ _ r ⟨rfl, ?_, ?_⟩ h
    · intro s hs; cases hs
    · intro s hs; cases hs

theorem obj1 {k : Bytes} {a b : Json} (hk : ∀ c ∈ k, c < 128) (h : RepairedIn a b) {xs ys : List (Bytes × Json)} (h' : RepairedIn (.obj xs) (.obj ys)) :
    RepairedIn (.obj ((k, a) :: xs)) (.obj ((k, b) :: ys)) := .objCons (repaired_utf8_same (ascii_utf8 hk)) h h'

theorem arr1 {a b : Json} (h : RepairedIn a b) : RepairedIn (.arr [a]) (.arr [b]) := .arrCons h .arrNil

theorem num_same (i : Int) : RepairedIn (Wire.num i) (Wire.num i) := .num _

/-- A report with given messages. -/
def reportOf (text : Result × Nat → Bytes) (r : Sarif.Run) : Json :=
  .obj [(b!"version", .str b!"2.1.0"), (b!"$schema", .str b!"http://json.schemastore.org/sarif-2.1.0-rtm.4"),
    (b!"runs", .arr [.obj [
      (b!"tool", .obj [(b!"driver", .obj [(b!"name", .str b!"tealscan"), (b!"informationUri", .str b!"https://github.com/dragmz/teal"),
        (b!"rules", .arr (r.rules.map ruleOut))])]),
      (b!"artifacts", .arr (r.artifacts.map artifactOut)),
      (b!"results", .arr (r.results.zipIdx.map fun x => .obj [(b!"level", .str x.1.level), (b!"message", .obj [(b!"text", .str (text x))]),
        (b!"locations", .arr [.obj [(b!"physicalLocation", .obj [
          (b!"artifactLocation", .obj [(b!"uri", .str x.1.uri), (b!"index", Wire.num x.1.index)]),
          (b!"region", .obj [(b!"startLine", Wire.num x.1.line), (b!"startColumn", Wire.num x.1.column)])])]]),
        (b!"ruleId", .str x.1.rule)]))]])]

theorem reportOut_of (operand : Nat → Bytes) (r : Sarif.Run) : reportOut operand r = reportOf (fun x => x.1.kind.text (operand x.2)) r := rfl

/-- Only messages are repaired. -/
theorem report_repaired {r : Sarif.Run} (h : AsciiRun r) {text text' : Result × Nat → Bytes} (ht : ∀ x, Repaired (text x) (text' x)) :
    RepairedIn (reportOf text r) (reportOf text' r) := by
  have k : ∀ {s : Bytes}, (s.all (· < 128)) = true → ∀ c ∈ s, c < 128 := fun h c hc => by simpa using List.all_eq_true.1 h c hc
  refine obj1 (k rfl) (ascii_same (k rfl)) (obj1 (k rfl) (ascii_same (k rfl)) (obj1 (k rfl) (arr1 ?_) .objNil))
  refine obj1 (k rfl) (obj1 (k rfl) (obj1 (k rfl) (ascii_same (k rfl)) (obj1 (k rfl) (ascii_same (k rfl)) (obj1 (k rfl) (repairedIn_map _ ?_) .objNil))) .objNil)
    (obj1 (k rfl) (repairedIn_map _ ?_) (obj1 (k rfl) (repairedIn_map _ ?_) .objNil))
  · intro s hs
    rw [h.rules] at hs
    have hs' : (∀ c ∈ s, c < 128) ∧ ∀ c ∈ (ruleTable.lookup s).getD [], c < 128 := by
      revert s
      show ∀ s ∈ rules, _
      decide +kernel
    exact obj1 (k rfl) (ascii_same hs'.1) (obj1 (k rfl) (obj1 (k rfl) (ascii_same hs'.2) .objNil) .objNil)
  · intro s hs
    exact obj1 (k rfl) (obj1 (k rfl) (ascii_same (h.artifacts s hs)) .objNil) .objNil
  · rintro ⟨x, i⟩ hx
    obtain ⟨h1, h2, h3⟩ := h.results x (List.fst_mem_of_mem_zipIdx hx)
    exact obj1 (k rfl) (ascii_same h2) (obj1 (k rfl) (obj1 (k rfl) (.str (ht (x, i))) .objNil) (obj1 (k rfl) (arr1 (obj1 (k rfl)
      (obj1 (k rfl) (obj1 (k rfl) (ascii_same h3) (obj1 (k rfl) (num_same _) .objNil)) (obj1 (k rfl) (obj1 (k rfl) (num_same _) (obj1 (k rfl) (num_same _) .objNil)) .objNil))
      .objNil)) (obj1 (k rfl) (ascii_same h1) .objNil)))

theorem report_is {text : Result × Nat → Bytes} {r : Sarif.Run} (hr : r.rules = rules) (ht : ∀ x m, Tells x.1.kind m → Repaired m (text x)) :
    IsReport r (reportOf text r) := by
  refine ⟨_, rfl, has_find (by decide) rfl rfl, has_find (by decide) rfl ⟨_, rfl⟩, has_find (by decide) rfl (.cons ⟨_, rfl, ?_, ?_, ?_⟩ .nil)⟩
  · refine has_find (by decide) rfl ⟨_, rfl, has_find (by decide) rfl ⟨_, rfl, has_find (by decide) rfl rfl, has_find (by decide) rfl ⟨_, rfl⟩,
      has_find (by decide) rfl (isArr_map _ fun s hs => ⟨_, rfl, has_find (by decide) rfl rfl, has_find (by decide) rfl ⟨_, rfl, _, ?_, has_find (by decide) rfl rfl⟩⟩)⟩⟩
    rw [hr] at hs
    revert s
    show ∀ s ∈ rules, _
    decide +kernel
  · exact has_find (by decide) rfl (isArr_map _ fun s _ => ⟨_, rfl, has_find (by decide) rfl ⟨_, rfl, has_find (by decide) rfl rfl⟩⟩)
  · refine has_find (by decide) rfl ?_
    have e : r.results.map IsResult = r.results.zipIdx.map fun x => IsResult x.1 := by
      have := List.zipIdx_map_fst 0 r.results
      conv => lhs; rw [← this, List.map_map]
      rfl
    rw [e]
    refine isArr_map _ fun x _ => ⟨_, rfl, has_find (by decide) rfl rfl, has_find (by decide) rfl rfl, has_find (by decide) rfl ⟨_, rfl, has_find (by decide) rfl ⟨_, rfl, ht x⟩⟩,
      has_find (by decide) rfl (.cons ⟨_, rfl, has_find (by decide) rfl ⟨_, rfl, has_find (by decide) rfl ⟨_, rfl, has_find (by decide) rfl rfl, has_find (by decide) rfl (num_integer _)⟩,
        has_find (by decide) rfl ⟨_, rfl, has_find (by decide) rfl (num_integer _), has_find (by decide) rfl (num_integer _)⟩⟩⟩ .nil)⟩

theorem report_numeric (text : Result × Nat → Bytes) (r : Sarif.Run) : Numeric (reportOf text r) := by
  have n1 : ∀ {k : Bytes} {v : Json} {ms : List (Bytes × Json)}, Numeric v → Numeric (.obj ms) → Numeric (.obj ((k, v) :: ms)) := by
    intro k v ms h1 h2
    cases h2 with
    | obj h2 =>
      refine .obj fun m hm => ?_
      rcases List.mem_cons.1 hm with rfl | hm
      · exact h1
      · exact h2 m hm
  have n0 : Numeric (.obj []) := .obj fun m hm => by cases hm
  have a1 : ∀ {v : Json}, Numeric v → Numeric (.arr [v]) := fun h => .arr fun v hv => by rw [List.mem_singleton.1 hv]; exact h
  have am : ∀ {α : Type} (xs : List α) (f : α → Json), (∀ x, Numeric (f x)) → Numeric (.arr (xs.map f)) := DapSpec.numeric_map
  refine n1 (.str _) (n1 (.str _) (n1 (a1 (n1 (n1 (n1 (.str _) (n1 (.str _) (n1 (am _ _ ?_) n0))) n0) (n1 (am _ _ ?_) (n1 (am _ _ ?_) n0)))) n0))
  · intro s; exact n1 (.str _) (n1 (n1 (.str _) n0) n0)
  · intro s; exact n1 (n1 (.str _) n0) n0
  · intro x
    have nn := DapSpec.num_numeric
    exact n1 (.str _) (n1 (n1 (.str _) n0) (n1 (a1 (n1 (n1 (n1 (.str _) (n1 (nn _) n0)) (n1 (n1 (nn _) (n1 (nn _) n0)) n0)) n0)) (n1 (.str _) n0)))

theorem repaired_append (a : Bytes) (ha : ∀ c ∈ a, c < 128) {s v : Bytes} (h : Repaired s v) : Repaired (a ++ s) (a ++ v) := by
  have hu := ascii_utf8 ha
  clear ha
  induction hu with
  | nil => exact h
  | cons hn _ ih => rw [List.append_assoc, List.append_assoc]; exact .char hn ih

theorem told_unique {operand : Bytes} {k : DiagKind} {m : Bytes} (h : Tells k m) : k.text operand = m := by
  cases h with
  | version min cur m c hm hc =>
    show b!"opcode requires version >= " ++ formatUint min ++ b!" (current: " ++ formatUint cur ++ b!")" = _
    rw [decimal_spelling (formatUint_decimal min) hm, decimal_spelling (formatUint_decimal cur) hc]
  | _ => rfl

/-- C108: what the scanner prints is one JSON text, followed by a line feed, of the report in the format SARIF has for it.  The
messages tell what was found. -/
theorem C108 {env : Env} {fs : Files} {r : Sarif.Run} (h : scan env fs = .report r) (operand : Nat → Bytes) :
    ∃ n j, Spells n (printed operand (scan env fs)) j ∧ IsReport r j := by
  obtain ⟨n, k, h1, h2⟩ := C100_written (report_numeric (fun x => x.1.kind.text (operand x.2)) r)
  have rep : ∀ s, ∃ v, Repaired s v := fun s => by
    obtain ⟨v, -, h, -⟩ := quote_repairs s
    exact ⟨v, h⟩
  have := repairedIn_unique h1 (report_repaired (scan_ascii h) (text' := fun x => (rep (x.1.kind.text (operand x.2))).choose)
    (fun x => (rep (x.1.kind.text (operand x.2))).choose_spec))
  rw [this] at h2
  obtain ⟨a, t, b, ha, ht, hb, e⟩ := C108_indented (tab := b!"\t") (by decide) h2
  refine ⟨n, _, ⟨a, t, b ++ b!"\n", ha, ht, ws_append hb (by decide), ?_⟩, report_is (scan_ascii h).rules ?_⟩
  · rw [h]
    show Json.indented b!"\t" (reportOut operand r) ++ b!"\n" = _
    rw [reportOut_of]
    unfold Json.indented
    rw [e, List.append_assoc, List.append_assoc]
  · intro x m hm
    have key : ∀ s, s = m → Repaired m (rep s).choose := fun s e => e ▸ (rep s).choose_spec
    exact key _ (told_unique hm)

/-- The word that is unknown is quoted, with a replacement character for what is not UTF-8. -/
example : IsMessage (.parse (.unknownOpcode [0xff, 97])) (.obj [(b!"text", .str (b!"unknown opcode: " ++ utf8 0xFFFD ++ b!"a"))]) := by
  refine ⟨_, rfl, has_find (by decide) rfl ⟨_, rfl, ?_⟩⟩
  intro m hm
  cases hm
  refine repaired_append (b!"unknown opcode: ") (by decide) (.stray ?_ (repaired_utf8_same (ascii_utf8 (by decide))))
  intro n t hn e
  have := decodeRune_utf8 hn t
  rw [← e] at this
  have h2 : decodeRune [0xff, 97] = (0xFFFD, 1) := by decide +kernel
  rw [h2] at this
  cases this

/-- A scan of a file with errors, with messages that are not UTF-8. -/
example : (match scan sampleEnv { root := .file b!"a.teal", read := fun _ => some b!"foo\nbar", abs := some } with
    | .report r => r.results.length == 2 && (Json.parse (printed (fun _ => [0xff]) (.report r))).isSome
    | _ => false) = true := by decide +kernel

end Teal.Props
