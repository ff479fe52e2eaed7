import Verif.Lemmas.Complete
import Verif.Spec.Taken
import Verif.Lemmas.Linter

/-!
# Completion

C85: what is offered at the cursor.
-/

namespace Teal.Lsp
open Teal Teal.Spec Teal.Lsp.Spec Teal.Props

/-- The argument `argAt` finds for a cursor on operand `i`. -/
theorem argAt_pointed {env : Env} {src : Bytes} {r : ProcessResult} (hr : process env src = some r) {k : Nat} {w : Token}
    {rest : List Token} (hw : Begins (tokens src) k w rest) {c : Int} {i : Nat} (hm : Pointed rest c i) :
    argAt r k c = match opsGet w.v with
      | none => some (none, -1)
      | some e =>
        let j := if e.shape.args ≠ [] ∧ i ≥ e.shape.args.length ∧ (e.shape.args.getLast?.map (·.array)).getD false = true
          then e.shape.args.length - 1 else i
        some (e.shape.args[j]?, j) := by
  obtain ⟨h1, h2⟩ := lines_begins hr hw
  unfold argAt
  rw [if_neg (by omega), if_neg (by omega), Int.toNat_natCast, h2]
  dsimp only
  have key : ∀ (args : List ArgInfo) (j : Nat), (if j ≥ args.length then some (none, (j : Int)) else some (args[j]?, (j : Int))) =
      some (args[j]?, (j : Int)) := by
    intro args j
    split
    · rename_i hj
      rw [List.getElem?_eq_none (by omega)]
    · rfl
  rcases immAt_pointed (w := w) hm with ⟨t, _, h⟩ | ⟨h, rfl⟩ <;> rw [h] <;> cases opsGet w.v with
  | none => rfl
  | some e => exact key _ _

theorem consts_offered : ∀ x : Bytes × Nat, x ∈ ((txnTypeMap typeNameDescriptions).entries.filter fun p => p.2 ≠ 0) ++ onCompletionMap.entries ↔
    x ∈ allConsts ∧ x.1 ∉ [b!"unknown", b!"Unknown type. Invalid transaction"] := by
  have h1 : ∀ x ∈ ((txnTypeMap typeNameDescriptions).entries.filter fun p => p.2 ≠ 0) ++ onCompletionMap.entries,
    x ∈ allConsts ∧ x.1 ∉ [b!"unknown", b!"Unknown type. Invalid transaction"] := by decide +kernel
  have h2 : ∀ x ∈ allConsts, x.1 ∉ [b!"unknown", b!"Unknown type. Invalid transaction"] →
    x ∈ ((txnTypeMap typeNameDescriptions).entries.filter fun p => p.2 ≠ 0) ++ onCompletionMap.entries := by decide +kernel
  exact fun x => ⟨h1 x, fun h => h2 x h.1 h.2⟩

/-- Which opcodes have a label, a constant or a field as an operand, where. -/
theorem label_rows : ∀ w ∈ [b!"b", b!"bz", b!"bnz", b!"callsub"], (opsGet w).map (·.shape.args) = some [⟨.label, false⟩] := by
  decide +kernel

theorem labels_rows : ∀ w ∈ [b!"switch", b!"match"], (opsGet w).map (·.shape.args) = some [⟨.label, true⟩] := by
  decide +kernel

theorem int_row : (opsGet b!"int").map (·.shape.args) = some [⟨.constInt, false⟩] := by decide +kernel

/-- The values offered for operand `i` of an opcode. -/
theorem argVals_mem {env : Env} {src : Bytes} {r : ProcessResult} (hr : process env src = some r) {ch : Choice} {w : Bytes} {e : OpEntry}
    (he : opsGet w = some e) (i : Nat) {V : Nat} (hV : r.version = V) (v : ArgVal) :
    (∃ a, e.shape.args[if e.shape.args ≠ [] ∧ i ≥ e.shape.args.length ∧ (e.shape.args.getLast?.map (·.array)).getD false = true
          then e.shape.args.length - 1 else i]? = some a ∧ v ∈ argVals ch.vals r a) ↔
      Offered (tokens src) V w i v := by
  obtain ⟨hm, hwn⟩ := opsGet_mem he
  have hcl : ∀ j : Nat, e.shape.args[j]? ≠ none → ∀ a : ArgInfo, e.shape.args[j]? = some a → a.array = false →
      (e.shape.args.getLast?.map (·.array)).getD false = true → False := by
    have : ∀ e ∈ opsList, (e.shape.args.getLast?.map (·.array)).getD false = true → ∀ a ∈ e.shape.args, a.array = true := by decide +kernel
    intro j _ a ha hf hl
    rw [this e hm hl a (List.mem_of_getElem? ha)] at hf
    cases hf
  constructor
  · rintro ⟨⟨ty, arr⟩, ha, hmem⟩
    have hrow := kindRows e hm (if e.shape.args ≠ [] ∧ i ≥ e.shape.args.length ∧ (e.shape.args.getLast?.map (·.array)).getD false = true
          then e.shape.args.length - 1 else i)
    unfold kindRow at hrow
    rw [ha] at hrow
    have hj : arr = false → (if e.shape.args ≠ [] ∧ i ≥ e.shape.args.length ∧ (e.shape.args.getLast?.map (·.array)).getD false = true
          then e.shape.args.length - 1 else i) = i := by
      intro harr
      by_cases hc : e.shape.args ≠ [] ∧ i ≥ e.shape.args.length ∧ (e.shape.args.getLast?.map (·.array)).getD false = true
      · exact (hcl _ (by rw [ha]; simp) _ ha harr hc.2.2).elim
      · rw [if_neg hc]
    cases ty with
    | label =>
      simp only [argVals, List.mem_map] at hmem
      obtain ⟨s, hs, h1⟩ := hmem
      cases h1
      obtain ⟨cs, hd, hc, hdocs, hsig⟩ := (symbol_facts hr).1 s hs
      rw [hdocs]
      refine .label _ _ cs _ ?_ hd hc hsig
      cases arr with
      | true =>
        simp only [Bool.and_eq_true, decide_eq_true_eq] at hrow
        rw [← hwn]; exact .inr hrow.2
      | false =>
        simp only [Bool.and_eq_true, decide_eq_true_eq] at hrow
        rw [hj rfl] at hrow
        rw [← hwn]; exact .inl ⟨hrow.2, hrow.1⟩
    | constInt =>
      simp only [Bool.and_eq_true, decide_eq_true_eq, Bool.not_eq_true'] at hrow
      rw [hj hrow.2] at hrow
      have : ∃ name n, v = ⟨name, some n, none, []⟩ ∧ (name, n) ∈ ((txnTypeMap typeNameDescriptions).entries.filter fun p => p.2 ≠ 0) ++ onCompletionMap.entries := by
        simp only [argVals, List.mem_append, (ch.valsPerm _).mem_iff, List.mem_map] at hmem
        rcases hmem with ⟨x, h1, h2⟩ | ⟨x, h1, h2⟩ <;> cases h2 <;> refine ⟨_, _, rfl, ?_⟩
        · exact List.mem_append_left _ h1
        · exact List.mem_append_right _ h1
      obtain ⟨name, n, rfl, h1⟩ := this
      obtain ⟨h2, h3⟩ := (consts_offered _).1 h1
      rw [← hwn, hrow.1.2, hrow.1.1]
      exact .value _ _ <| .const _ _ ((namedConst_iff _ _).2 h2) h3
    | field f =>
      have harr : arr = false := by
        cases f with
        | group g => simp only [Bool.and_eq_true, Bool.not_eq_true'] at hrow; exact hrow.1
        | txn c => simp only [Bool.and_eq_true, Bool.not_eq_true'] at hrow; exact hrow.1.1
      rw [hj harr] at ha
      simp only [argVals, (ch.valsPerm _).mem_iff, List.mem_map, List.mem_filter, decide_eq_true_eq, hV] at hmem
      obtain ⟨p, ⟨hp, hv⟩, h1⟩ := hmem
      cases h1
      obtain ⟨h1, h2⟩ := (field_candidates he ha V _ _).1 ⟨p, hp, hv, rfl, rfl⟩
      exact .value _ _ <| .field _ _ _ _ h1 h2
    | _ => simp [argVals] at hmem
  · have hlab : ∀ {k n cs sig}, LabelLine (tokens src) k n → CommentsAbove (tokens src) k cs →
        (∀ a b, sig = some (a, b) ↔ FunctionOf (tokens src) n a b) →
        ∃ s ∈ r.symbols, ({ name := s.name, value := none, sig := s.sig, docs := s.docs } : ArgVal) = ⟨n, none, sig, [chLF].intercalate cs⟩ := by
      intro k n cs sig hl hc hs
      obtain ⟨s, hm, rfl, rfl⟩ := (symbol_facts hr).2 k n hl
      obtain ⟨cs', -, h2, h3, h4⟩ := (symbol_facts hr).1 s hm
      refine ⟨s, hm, ?_⟩
      rw [h3, commentsAbove_unique h2 hc]
      have : s.sig = sig := by
        cases hsg : sig with
        | some p => exact (h4 p.1 p.2).2 ((hs p.1 p.2).1 hsg)
        | none =>
          cases hss : s.sig with
          | none => rfl
          | some p => have := (hs p.1 p.2).2 ((h4 p.1 p.2).1 hss); rw [hsg] at this; cases this
      rw [this]
    intro hc
    cases hc with
    | label k n cs sig h hl hc hs =>
      obtain ⟨s, hm, h1⟩ := hlab hl hc hs
      rcases h with ⟨h, rfl⟩ | h
      · have := label_rows w h
        rw [he] at this
        have := Option.some.inj this
        dsimp only at this
        refine ⟨⟨.label, false⟩, by rw [this]; rfl, ?_⟩
        simp only [argVals, List.mem_map]
        exact ⟨s, hm, h1⟩
      · have := labels_rows w h
        rw [he] at this
        have := Option.some.inj this
        dsimp only at this
        refine ⟨⟨.label, true⟩, ?_, ?_⟩
        · rw [this]
          cases i with
          | zero => rfl
          | succ i => rw [if_pos ⟨by simp, by simp, rfl⟩]; rfl
        · simp only [argVals, List.mem_map]
          exact ⟨s, hm, h1⟩
    | value name n hc =>
    generalize hv : some n = v at hc
    cases hc with
    | target => cases hv
    | targets => cases hv
    | const _ n' h hu =>
      cases hv
      have := int_row
      rw [he] at this
      have := Option.some.inj this
      dsimp only at this
      refine ⟨⟨.constInt, false⟩, by rw [this]; rfl, ?_⟩
      have := (consts_offered (name, n)).2 ⟨(namedConst_iff _ _).1 h, hu⟩
      simp only [argVals, List.mem_append, (ch.valsPerm _).mem_iff, List.mem_map]
      rcases List.mem_append.1 this with h1 | h1
      · exact .inl ⟨_, h1, rfl⟩
      · exact .inr ⟨_, h1, rfl⟩
    | field _ _ _ n' h hk =>
      cases hv
      obtain ⟨e', a, he', ha, hne, hnm⟩ := fieldName_iff.1 h
      cases he.symm.trans he'
      obtain ⟨ty, arr⟩ := a
      cases ty with
      | field f =>
        have hrow := kindRows e hm i
        unfold kindRow at hrow
        rw [ha] at hrow
        have harr : arr = false := by
          cases f with
          | group g => simp only [Bool.and_eq_true, Bool.not_eq_true'] at hrow; exact hrow.1
          | txn c => simp only [Bool.and_eq_true, Bool.not_eq_true'] at hrow; exact hrow.1.1
        obtain ⟨p, hp, h1, h2, h3⟩ := (field_candidates he ha V n name).2 ⟨h, hk⟩
        refine ⟨⟨.field f, arr⟩, ?_, ?_⟩
        · rw [if_neg, ha]
          rintro ⟨_, hc, _⟩
          rw [List.getElem?_eq_none hc] at ha
          cases ha
        · simp only [argVals, (ch.valsPerm _).mem_iff, List.mem_map, List.mem_filter, decide_eq_true_eq, hV]
          exact ⟨p, ⟨hp, h1⟩, by rw [h2, h3]⟩
      | _ => simp only [argFieldName] at hnm; exact absurd hnm.symm hne

theorem offered_candidate {env : Env} {src : Bytes} {r : ProcessResult} (hr : process env src = some r) {V : Nat} {w : Bytes} {i : Nat}
    {name : Bytes} {v : Option Nat} :
    (∃ sig docs, Offered (tokens src) V w i ⟨name, v, sig, docs⟩) ↔ Candidate (tokens src) V w i name v := by
  constructor
  · rintro ⟨sig, docs, h⟩
    cases h with
    | label k n cs sig h hl hc hs =>
      have hd : HasLabel (tokens src) name := ⟨hl.1, k, hl.2⟩
      rcases h with ⟨h, rfl⟩ | h
      · exact .target _ _ h hd
      · exact .targets _ _ _ h hd
    | value name n h => exact h
  · intro h
    have hlab : HasLabel (tokens src) name → ((w ∈ [b!"b", b!"bz", b!"bnz", b!"callsub"] ∧ i = 0) ∨ w ∈ [b!"switch", b!"match"]) →
        ∃ sig docs, Offered (tokens src) V w i ⟨name, none, sig, docs⟩ := by
      rintro ⟨h1, k, h2⟩ hop
      obtain ⟨s, hm, rfl, rfl⟩ := (symbol_facts hr).2 k name ⟨h1, h2⟩
      obtain ⟨cs', h2, h3, h4, h5⟩ := (symbol_facts hr).1 s hm
      exact ⟨_, _, .label _ _ cs' s.sig hop h2 h3 h5⟩
    cases v with
    | some n => exact ⟨_, _, .value _ _ h⟩
    | none =>
      cases h with
      | target _ _ h hd => exact hlab hd (.inl ⟨h, rfl⟩)
      | targets _ _ _ h hd => exact hlab hd (.inr h)

theorem op_since : ∀ d ∈ docOps, (opsGet d.name).map (·.minVersion .app) = some ((takenSince d false).getD 0) := by decide +kernel

end Teal.Lsp

namespace Teal.Props
open Teal Teal.Spec Teal.Lsp Teal.Lsp.Spec

/-- **C85** What is offered behind the opcode, exactly: the operand is the first one the cursor is on or, if
it is on none, the one behind the last; a comment on a line of its own is taken for an opcode.  The order
is left open. -/
theorem C85_operand_exact (h : Host) (ms : List (Choice × Msg)) (u src : Bytes) (k : Nat) (c : Int) (a : Result)
    (ha : Answered h ms u src (.completion ⟨k, c⟩) a) (w : Token) (rest : List Token) (hw : Begins (tokens src) k w rest)
    (hc : (w.e : Int) < c) (i : Nat) (hi : Pointed rest c i) (V : Nat) (hV : VersionAt (tokens src) (lineCount (tokens src)) V) :
    ∃ cs, a = .completions cs ∧
      (∀ v, .arg v ∈ cs ↔ Offered (tokens src) V w.v i v) ∧
      (∀ x ∈ cs, x = .empty ∨ ∃ v, x = .arg v) ∧ (.empty ∈ cs ↔ ∀ v, ¬ Offered (tokens src) V w.v i v) := by
  obtain ⟨ch, mp, r, hr, hans⟩ := answered ha
  obtain ⟨cs, hcs, rfl⟩ := Option.map_eq_some_iff.1 (show (completions ch r ⟨k, c⟩).map Result.completions = some a from hans)
  obtain ⟨h1, h2⟩ := lines_begins hr hw
  have hver : r.version = V := versionAt_unique (C24_pragma_partial _ src r hr).2.1 _ hV
  refine ⟨cs, rfl, ?_⟩
  unfold completions at hcs
  rw [if_neg (by simp)] at hcs
  dsimp only at hcs
  rw [Int.toNat_natCast, h2] at hcs
  dsimp only at hcs
  rw [if_neg (by omega), argAt_pointed hr hw hi] at hcs
  have hunk : opsGet w.v = none → ∀ v, ¬ Offered (tokens src) V w.v i v := by
    intro hn v hc
    have hnone : ∀ {x : List ArgInfo}, (opsGet w.v).map (·.shape.args) = some x → False := by
      intro x h; rw [hn] at h; cases h
    have hc := (offered_candidate hr).1 ⟨_, _, hc⟩
    generalize w.v = wv at hc hnone hn
    generalize v.value = vv at hc
    cases hc with
    | target _ _ h => exact hnone (label_rows _ h)
    | targets _ _ _ h => exact hnone (labels_rows _ h)
    | const _ n h => exact hnone int_row
    | field _ _ _ n h =>
      obtain ⟨e, _, he, _⟩ := fieldName_iff.1 h
      rw [hn] at he; cases he
  cases he : opsGet w.v with
  | none =>
    rw [he] at hcs
    cases hcs
    have := hunk he
    exact ⟨fun v => ⟨fun hx => by simp at hx, fun hx => absurd hx (this _)⟩, by simp, by simpa using this⟩
  | some e =>
    rw [he] at hcs
    dsimp only at hcs
    have hmem := fun v => argVals_mem hr (ch := ch) he i hver v
    generalize (if e.shape.args ≠ [] ∧ i ≥ e.shape.args.length ∧ (e.shape.args.getLast?.map (·.array)).getD false = true
          then e.shape.args.length - 1 else i) = j at hcs hmem
    cases harg : e.shape.args[j]? with
    | none =>
      rw [harg] at hcs hmem
      cases hcs
      have hno : ∀ v, ¬ Offered (tokens src) V w.v i v := by
        intro v hx
        obtain ⟨_, h, _⟩ := (hmem v).2 hx
        cases h
      exact ⟨fun v => ⟨fun hx => by simp at hx, fun hx => absurd hx (hno _)⟩, by simp, by simpa using hno⟩
    | some arg =>
      rw [harg] at hcs hmem
      dsimp only at hcs
      have hmem : ∀ v, v ∈ argVals ch.vals r arg ↔ Offered (tokens src) V w.v i v := by
        intro v
        rw [← hmem]
        exact ⟨fun h => ⟨arg, rfl, h⟩, fun ⟨_, h, h'⟩ => by cases h; exact h'⟩
      cases hcs
      split
      · rename_i hnil
        rw [List.map_eq_nil_iff] at hnil
        have hno : ∀ v, ¬ Offered (tokens src) V w.v i v := by
          intro v hx
          have h := (hmem v).2 hx
          rw [hnil] at h; cases h
        exact ⟨fun v => ⟨fun hx => by simp at hx, fun hx => absurd hx (hno _)⟩, by simp, by simpa using hno⟩
      · rename_i hnil
        rw [List.map_eq_nil_iff] at hnil
        refine ⟨fun v => ?_, ?_, ?_⟩
        · rw [← hmem]
          simp
        · intro x hx
          obtain ⟨y, _, rfl⟩ := List.mem_map.1 hx
          exact .inr ⟨y, rfl⟩
        · constructor
          · intro hx
            obtain ⟨y, _, h⟩ := List.mem_map.1 hx
            cases h
          · intro hno
            obtain ⟨y, ys, hy⟩ := List.exists_cons_of_ne_nil hnil
            exact absurd ((hmem y).1 (by rw [hy]; simp)) (hno _)

/-- **C85** (partial: for a cursor on an operand or behind all of them; see `C85_false`.)  Behind the
opcode, completion offers exactly what can stand there as an operand: the labels of the text, the named
integers, or the fields of the version in force at the end of the text, each with its number. -/
theorem C85_operand_partial (h : Host) (ms : List (Choice × Msg)) (u src : Bytes) (k : Nat) (c : Int) (a : Result)
    (ha : Answered h ms u src (.completion ⟨k, c⟩) a) (w : Token) (rest : List Token) (hw : words (tokens src) k = w :: rest)
    (hc : (w.e : Int) < c) (i : Nat) (hi : Meant rest c i) (V : Nat) (hV : VersionAt (tokens src) (lineCount (tokens src)) V) :
    ∃ cs, a = .completions cs ∧
      (∀ name v, (∃ sig docs, .arg ⟨name, v, sig, docs⟩ ∈ cs) ↔ Candidate (tokens src) V w.v i name v) ∧
      (∀ x ∈ cs, x = .empty ∨ ∃ v, x = .arg v) ∧ (.empty ∈ cs ↔ ∀ name v, ¬ Candidate (tokens src) V w.v i name v) := by
  obtain ⟨cs, h1, h2, h3, h4⟩ := C85_operand_exact h ms u src k c a ha w rest (.inl hw) hc i (meant_pointed hi) V hV
  obtain ⟨ch, mp, r, hr, -⟩ := answered ha
  refine ⟨cs, h1, fun name v => ?_, h3, h4.trans ⟨?_, ?_⟩⟩
  · rw [← offered_candidate hr]
    simp only [h2]
  · intro hno name v hx
    obtain ⟨_, _, hx⟩ := (offered_candidate hr).2 hx
    exact hno _ hx
  · intro hno v hx
    exact hno v.name v.value ((offered_candidate hr).1 ⟨v.sig, v.docs, hx⟩)

/-- **C85** What is offered for the first word of a line, exactly: each opcode once that begins with what is
written and whose version is reached; those for logic signatures only count as there from the beginning,
but for `args`, for which the modes are mixed up. -/
theorem C85_opcode_exact (h : Host) (ms : List (Choice × Msg)) (u src : Bytes) (k : Nat) (c : Int) (a : Result)
    (ha : Answered h ms u src (.completion ⟨k, c⟩) a) (pre : Bytes)
    (hp : ((∀ t ∈ tokens src, t.l ≠ k) ∧ pre = []) ∨ ∃ w rest, Begins (tokens src) k w rest ∧ c ≤ w.e ∧ pre = w.v)
    (V : Nat) (hV : VersionAt (tokens src) (lineCount (tokens src)) V) :
    ∃ ops, a = .completions ([.snippet b!"soc", .snippet b!"func"] ++ ops) ∧ ops.Nodup ∧
      ∀ x, x ∈ ops ↔ ∃ d ∈ docOps, x = .op d.name ∧ pre <+: d.name ∧ (takenSince d false).getD 0 ≤ V := by
  obtain ⟨ch, mp, r, hr, hans⟩ := answered ha
  obtain ⟨cs, hcs, rfl⟩ := Option.map_eq_some_iff.1 (show (completions ch r ⟨k, c⟩).map Result.completions = some a from hans)
  have hver : r.version = V := versionAt_unique (C24_pragma_partial _ src r hr).2.1 _ hV
  have hcs : cs = [Completion.snippet b!"soc", .snippet b!"func"] ++ ch.ops (opCompletions r pre) := by
    unfold completions at hcs
    rw [if_neg (by simp)] at hcs
    dsimp only at hcs
    rw [Int.toNat_natCast] at hcs
    rcases hp with ⟨h1, rfl⟩ | ⟨w, rest, h1, h2, rfl⟩
    · rw [lines_empty hr h1] at hcs
      exact (Option.some.inj hcs).symm
    · rw [(lines_begins hr h1).2] at hcs
      dsimp only at hcs
      rw [if_pos h2] at hcs
      exact (Option.some.inj hcs).symm
  refine ⟨_, by rw [hcs], ?_, ?_⟩
  · rw [(ch.opsPerm _).nodup_iff]
    unfold opCompletions
    refine List.Pairwise.map _ ?_ ((nodup_eraseDups _).filter _)
    intro x y hne he
    exact hne (Completion.op.inj he)
  · intro x
    rw [(ch.opsPerm _).mem_iff]
    simp only [opCompletions, List.mem_map, List.mem_filter, hver, Bool.and_eq_true, List.isPrefixOf_iff_prefix, List.mem_eraseDups]
    constructor
    · rintro ⟨n, ⟨⟨e, h1, rfl⟩, h2, h3⟩, rfl⟩
      obtain ⟨d, hd, h4⟩ := docOps_names e h1
      refine ⟨d, hd, by rw [h4], by rw [h4]; exact h3, ?_⟩
      have h5 := op_since d hd
      rw [h4] at h5
      obtain ⟨e', h6, h7⟩ := Option.map_eq_some_iff.1 h5
      rw [h6] at h2
      rw [← h7]
      simpa using h2
    · rintro ⟨d, hd, rfl, h1, h2⟩
      obtain ⟨e, h3, h4⟩ := Option.map_eq_some_iff.1 (op_since d hd)
      obtain ⟨h5, h6⟩ := opsGet_mem h3
      refine ⟨d.name, ⟨⟨e, h5, h6⟩, ?_, h1⟩, rfl⟩
      rw [h3]
      rw [← h4] at h2
      simpa using h2

/-- **C85** (partial: for opcodes of applications; see `C85_false`.)  On an empty line, or with the
cursor not behind the first word, completion offers exactly the opcodes that begin with what is written
and that the version in force at the end of the text has. -/
theorem C85_opcode_partial (h : Host) (ms : List (Choice × Msg)) (u src : Bytes) (k : Nat) (c : Int) (a : Result)
    (ha : Answered h ms u src (.completion ⟨k, c⟩) a) (pre : Bytes)
    (hp : ((∀ t ∈ tokens src, t.l ≠ k) ∧ pre = []) ∨ ∃ w rest, words (tokens src) k = w :: rest ∧ c ≤ w.e ∧ pre = w.v)
    (V : Nat) (hV : VersionAt (tokens src) (lineCount (tokens src)) V) :
    ∃ cs, a = .completions cs ∧
      (∀ d ∈ docOps, d.name ≠ b!"args" → ∀ v, d.app = some v → (.op d.name ∈ cs ↔ pre <+: d.name ∧ v ≤ V)) ∧
      (∀ x ∈ cs, (∃ d ∈ docOps, pre <+: d.name ∧ x = .op d.name) ∨ x = .snippet b!"soc" ∨ x = .snippet b!"func") := by
  obtain ⟨ops, rfl, -, hops⟩ := C85_opcode_exact h ms u src k c a ha pre
    (hp.imp id fun ⟨w, rest, h1, h2⟩ => ⟨w, rest, .inl h1, h2⟩) V hV
  refine ⟨_, rfl, ?_, ?_⟩
  · intro d hd hn v hv
    simp only [List.mem_append, List.mem_cons, reduceCtorEq, List.not_mem_nil, or_self, false_or, hops, Completion.op.injEq]
    have huniq : ∀ d ∈ docOps, ∀ d' ∈ docOps, d.name = d'.name → d = d' := by decide +kernel
    have hsince : (takenSince d false).getD 0 = v := by
      unfold takenSince DocOp.since
      rw [if_neg hn]
      simp [hv]
    constructor
    · rintro ⟨d', hd', h1, h2, h3⟩
      cases huniq d hd d' hd' h1
      exact ⟨h2, by omega⟩
    · rintro ⟨h1, h2⟩
      exact ⟨d, hd, rfl, h1, by omega⟩
  · intro x hx
    rcases List.mem_append.1 hx with hx | hx
    · right; simpa using hx
    · obtain ⟨d, hd, h1, h2, -⟩ := (hops x).1 hx
      exact .inl ⟨d, hd, h2, h1⟩

theorem version_of {src : Bytes} {v : Nat} (h : (process sampleEnv src).map (·.version) = some v) :
    VersionAt (tokens src) (lineCount (tokens src)) v := by
  obtain ⟨r, hr, rfl⟩ := Option.map_eq_some_iff.1 h
  exact (C24_pragma_partial _ _ _ hr).2.1

/-- A text with a pragma, a label and an unfinished instruction. -/
def completeSrc : Bytes := b!"#pragma version 3\nx:\nb \nglobal \n"

/-- C85: on the jump the label is offered; on the field those of version 3, with the fifth of them last;
on the empty line `txna` (since version 2) but not `itxn` (since version 5). -/
example : ∃ cs cs' cs'', Answered sampleHost (openSession completeSrc) b!"u" completeSrc (.completion ⟨2, 2⟩) (.completions cs) ∧
    (words (tokens completeSrc) 2).map Token.v = [b!"b"] ∧ cs = [.arg ⟨b!"x", none, none, []⟩] ∧
    Answered sampleHost (openSession completeSrc) b!"u" completeSrc (.completion ⟨3, 7⟩) (.completions cs') ∧
    .arg ⟨b!"CreatorAddress", some 9, none, []⟩ ∈ cs' ∧ .arg ⟨b!"OpcodeBudget", some 12, none, []⟩ ∉ cs' ∧
    Answered sampleHost (openSession completeSrc) b!"u" completeSrc (.completion ⟨4, 0⟩) (.completions cs'') ∧
    .op b!"txna" ∈ cs'' ∧ .op b!"itxn" ∉ cs'' ∧ VersionAt (tokens completeSrc) (lineCount (tokens completeSrc)) 3 := by
  refine ⟨_, _, _, open_answered _ _ _ (by decide +kernel), by decide +kernel, rfl, open_answered _ _ _ rfl, by decide +kernel, by decide +kernel,
    open_answered _ _ _ rfl, by decide +kernel, by decide +kernel, version_of (by decide +kernel)⟩

/-- **C85** fails: an opcode for logic signatures only is offered in an application; with the cursor
between the opcode and its operand, nothing is offered for this operand; and before the first version
pragma the opcodes of the last one are offered. -/
theorem C85_false :
    (∃ cs, Answered sampleHost (openSession b!"err\n") b!"u" b!"err\n" (.completion ⟨1, 0⟩) (.completions cs) ∧ .op b!"arg" ∈ cs ∧
      ⟨b!"arg", none, some 1⟩ ∈ docOps) ∧
    (Answered sampleHost (openSession b!"txn  Sender") b!"u" b!"txn  Sender" (.completion ⟨0, 4⟩) (.completions [.empty]) ∧
      Candidate (tokens b!"txn  Sender") 1 b!"txn" 0 b!"Sender" (some 0)) ∧
    (∃ cs, Answered sampleHost (openSession b!"\n#pragma version 5") b!"u" b!"\n#pragma version 5" (.completion ⟨0, 0⟩) (.completions cs) ∧
      .op b!"itxn_begin" ∈ cs ∧ ⟨b!"itxn_begin", some 5, none⟩ ∈ docOps ∧ VersionAt (tokens b!"\n#pragma version 5") 0 1) := by
  refine ⟨⟨_, open_answered _ _ _ rfl, by decide +kernel, by decide +kernel⟩, ⟨open_answered _ _ _ (by decide +kernel), ?_⟩,
    ⟨_, open_answered _ _ _ rfl, by decide +kernel, by decide +kernel, .first⟩⟩
  refine .field _ _ _ _ (.txn _ _ ⟨b!"Sender", 0, false, some 5⟩ (by decide +kernel) (by decide +kernel)) ⟨?_, ?_, ?_⟩
  · intro names k hx
    have := (by decide +kernel : ∀ x ∈ fieldOps, x.1 ≠ b!"txn")
    exact absurd rfl (this _ hx)
  · intro h; revert h; decide +kernel
  · intro _ _
    have := (by decide +kernel : ∀ d ∈ txnFields, d.name = b!"Sender" → d.since ≤ 1)
    exact this

end Teal.Props
