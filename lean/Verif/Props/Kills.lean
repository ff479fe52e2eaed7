import Verif.Spec.Kills
import Verif.Props.Hover

/-!
# C48: exactly which messages stop the language server, and which requests it answers
-/

namespace Teal.Lsp
open Teal Teal.Spec Teal.Lsp.Spec Teal.Props

/-- Whether processing panics does not depend on the order in which maps are visited. -/
theorem panics_any {addrOk : Bytes → Bool} {t : Bytes} {mp : MapOrder} (h : process ⟨addrOk, mp⟩ t = none) : Panics addrOk t := by
  intro mp'
  obtain ⟨os, hr, he⟩ := process_eq ⟨addrOk, mp⟩ t
  obtain ⟨os', hr', he'⟩ := process_eq ⟨addrOk, mp'⟩ t
  have hos : os = os' := by
    have key : ∀ {s ls os os'}, Run addrOk s ls os → Run addrOk s ls os' → os = os' := by
      intro s ls os os' h h'
      induction h generalizing os' with
      | nil => cases h'; rfl
      | cons s line o ls os h hf hr ih =>
        cases h' with
        | cons _ _ o' _ os' h2 hf2 hr2 =>
          rw [h] at h2
          cases h2
          rw [ih hr2]
    exact key hr hr'
  subst hos
  rw [he] at h
  rw [he']
  unfold assemble at h ⊢
  simp only [Option.map_eq_none_iff] at h ⊢
  cases hx : lintDiags (linesOf t) (lintErrs mp' (os.flatMap (·.ctx.ops))) with
  | none => rfl
  | some ds =>
    have h1 := (lintDiags_some _ _).1 ⟨ds, hx⟩
    have h2 : ∀ e ∈ lintErrs mp (os.flatMap (·.ctx.ops)), e.l < (linesOf t).length := by
      intro e he
      refine h1 e ?_
      rw [mem_lintErrs, mem_lintDuplicate, mem_lintUnused, mem_lintMissing] at he ⊢
      exact he
    obtain ⟨ds', hds'⟩ := (lintDiags_some _ _).2 h2
    rw [hds'] at h
    cases h

theorem immAt_iff {w : Token} {rest : List Token} {c : Int} {t : Token} {i : Nat} :
    immAt (w :: rest) c = some (t, i) ↔ rest[i]? = some t ∧ ((t.b : Int) ≤ c ∧ c ≤ t.e) ∧
      ∀ (j : Nat) t', j < i → rest[j]? = some t' → ¬ ((t'.b : Int) ≤ c ∧ c ≤ t'.e) := by
  have h0 : immAt (w :: rest) c = rest.zipIdx.find? (fun p => decide (c ≥ p.1.b) && decide (c ≤ p.1.e)) := by
    unfold immAt
    rw [List.drop_one, List.tail_cons]
    cases rest.zipIdx.find? (fun p => decide (c ≥ p.1.b) && decide (c ≤ p.1.e)) <;> rfl
  rw [h0, List.find?_eq_some_iff_getElem]
  constructor
  · rintro ⟨h1, k, hk, h2, h3⟩
    simp only [List.length_zipIdx] at hk
    simp only [List.getElem_zipIdx, Prod.mk.injEq] at h2
    obtain ⟨h2, rfl⟩ := h2
    simp only [Bool.and_eq_true, decide_eq_true_eq] at h1
    refine ⟨by rw [Nat.zero_add, List.getElem?_eq_getElem hk, h2], h1, ?_⟩
    intro j t' hj ht'
    have h4 := h3 j (by omega)
    have h5 : rest[j]'(by omega) = t' := by
      rw [List.getElem?_eq_getElem (by omega)] at ht'
      exact Option.some.inj ht'
    simp only [List.getElem_zipIdx, h5, Bool.not_eq_true', Bool.and_eq_false_imp, decide_eq_true_eq, decide_eq_false_iff_not] at h4
    exact fun h6 => h4 h6.1 h6.2
  · rintro ⟨h1, h2, h3⟩
    obtain ⟨hi, h'⟩ := List.getElem?_eq_some_iff.1 h1
    refine ⟨by simp only [Bool.and_eq_true, decide_eq_true_eq]; exact h2, i, by simpa using hi, by simp [h'], ?_⟩
    intro j hj
    have := h3 j rest[j] hj (List.getElem?_eq_getElem (by omega))
    simp only [List.getElem_zipIdx, Bool.not_eq_true', Bool.and_eq_false_imp, decide_eq_true_eq, decide_eq_false_iff_not]
    exact fun h4 h5 => this ⟨h4, h5⟩

theorem fieldDoc_none_iff (g : FieldGroup) (s : Bytes) : fieldDoc g s = none ↔
    g ≠ .ecGroup ∧ ∃ n : Int, SignedDecimal s n ∧ -9223372036854775808 ≤ n ∧ n < 0 := by
  constructor
  · intro h
    unfold fieldDoc at h
    split at h
    · cases h
    · rename_i hg
      refine ⟨hg, ?_⟩
      split at h
      · cases h
      · split at h
        · cases h
        · rename_i v hv
          split at h
          · rename_i hneg
            obtain ⟨h1, h2, -⟩ := (atoi_iff s v).1 hv
            exact ⟨v, h1, h2, hneg⟩
          · split at h <;> cases h
  · rintro ⟨hg, n, h1, h2, h3⟩
    have hv := (atoi_iff s n).2 ⟨h1, h2, by omega⟩
    unfold fieldDoc
    rw [if_neg hg]
    cases hs : g.specByName.get s with
    | some spec =>
      have hin : ∃ spec' ∈ g.specs, g.str spec'.field = s := by
        refine Classical.byContradiction fun hno => ?_
        rw [specByName_none g s fun x hx he => hno ⟨x, hx, he⟩] at hs
        cases hs
      obtain ⟨spec', hm, rfl⟩ := hin
      obtain ⟨m, hm'⟩ := List.mem_iff_getElem?.1 hm
      have h4 := congrArg (fun l => l[m]?) (documented_specs g)
      simp only [List.getElem?_map, hm', Option.map_some] at h4
      obtain ⟨d, h5, h6⟩ := Option.map_eq_some_iff.1 h4
      have hf := (mem_specs_of_index g m spec' hm').2
      have h7 : d.name = g.str spec'.field := congrArg Prod.fst h6
      obtain ⟨c, t, h8, h9⟩ := signed_head h1
      obtain ⟨c', t', h10, h11⟩ := names_head.1 g d (List.mem_of_getElem? h5)
      rw [h7, h8] at h10
      cases h10
      have : ∀ x : UInt8, x < 58 → ¬ 64 < x := by apply forall_byte; decide +kernel
      exact absurd h11 (this _ h9)
    | none =>
      dsimp only
      rw [hv]
      dsimp only
      rw [if_pos h3]

/-- The operand that is looked up, for fields. -/
theorem clamp_field {e : OpEntry} (hm : e ∈ opsList) (i : Nat) (f : FieldReader) (arr : Bool) :
    e.shape.args[(if e.shape.args ≠ [] ∧ i ≥ e.shape.args.length ∧ (e.shape.args.getLast?.map (·.array)).getD false = true
      then e.shape.args.length - 1 else i)]? = some ⟨.field f, arr⟩ ↔ e.shape.args[i]? = some ⟨.field f, arr⟩ := by
  by_cases hcl : e.shape.args ≠ [] ∧ i ≥ e.shape.args.length ∧ (e.shape.args.getLast?.map (·.array)).getD false = true
  · rw [if_pos hcl]
    have h5 := ((list_rows e hm).1).1 hcl.2.2
    have h6 : ∀ e ∈ opsList, e.name ∈ listOps → ∀ a ∈ e.shape.args, (match a.type with | .field _ => false | _ => true) = true := by
      decide +kernel
    constructor
    · intro h7
      exact absurd (h6 e hm h5 _ (List.mem_of_getElem? h7)) (by simp)
    · intro h7
      rw [List.getElem?_eq_none hcl.2.1] at h7; cases h7
  · rw [if_neg hcl]

theorem field_ec {e : OpEntry} (hm : e ∈ opsList) {i : Nat} {f : FieldReader} {arr : Bool}
    (ha : e.shape.args[i]? = some ⟨.field f, arr⟩) : f.table ≠ .ecGroup ↔ e.name ∉ ecOps := by
  cases f with
  | group g => rw [Ne, show (FieldReader.group g).table = g from rfl, ec_rows e hm _ (List.mem_of_getElem? ha) g rfl]
  | txn c => exact ⟨fun _ => ec_txn e hm _ (List.mem_of_getElem? ha) c rfl, fun _ => by simp [FieldReader.table]⟩

theorem table_some (g : FieldGroup) : ∃ d, (documented g)[0]? = some d := by
  cases g <;> exact ⟨_, rfl⟩

theorem docAt_none {env : Env} {src : Bytes} {r : ProcessResult} (hr : process env src = some r) (p : Pos) :
    docAt r p = none ↔ p.line < 0 ∨ OnNegativeField src p := by
  constructor
  · intro hd
    unfold docAt at hd
    split at hd
    · cases hd
    · rename_i hlt
      split at hd
      · exact .inl (by assumption)
      · rename_i hpos
        right
        split at hd
        · cases hd
        · rename_i op rest hline
          split at hd
          · cases hd
          · rename_i e he
            split at hd
            · cases hd
            · rename_i hop
              split at hd
              · cases hd
              · rename_i t i himm
                dsimp only at hd
                obtain ⟨hm, hwn⟩ := opsGet_mem he
                split at hd
                · rename_i f arr harg
                  have harg' := (clamp_field hm i f arr).1 harg
                  obtain ⟨hg, n, h1, h2, h3⟩ := (fieldDoc_none_iff _ _).1 hd
                  obtain ⟨h4, h5, h6⟩ := immAt_iff.1 himm
                  have hw : words (readTokens src).1 p.line.toNat = op :: rest := by
                    obtain ⟨os, hrun, ha⟩ := process_run hr
                    obtain ⟨lds, -, -, -, -, -, -, hl, -⟩ := assemble_eq ha
                    have h7 : (linesOf src)[p.line.toNat]? = some (op :: rest) := by
                      rw [hl, List.getD_eq_getElem?_getD] at hline
                      cases hk : (linesOf src)[p.line.toNat]? with
                      | none => rw [hk] at hline; cases hline
                      | some line => rw [hk] at hline; exact congrArg some hline
                    obtain ⟨-, h8⟩ := (linesOf_get src _ _).1 h7
                    have h9 := (lineOk (readTokens_seq src) p.line.toNat).shape
                    rw [← h8] at h9
                    rcases h9 with ⟨c, hc, -⟩ | hv
                    · cases hc; simp at h4
                    · unfold lineTokens at h8
                      split at h8
                      · have h10 := mem_comments.1 (show op ∈ comments (readTokens src).1 p.line.toNat by rw [← h8]; simp)
                        rw [(hv op (by simp)).1] at h10
                        simp at h10
                      · exact h8.symm
                  refine ⟨p.line.toNat, op, rest, i, t, n, by omega, hw, hop, h4, h5, h6, ?_, ?_, h1, h2, h3⟩
                  · rw [← hwn]
                    exact (field_ec hm harg').1 hg
                  · obtain ⟨d, hd0⟩ := table_some f.table
                    exact ⟨0, d.name, (tableName_iff he).2 ⟨f, arr, harg', d, hd0, rfl⟩⟩
                · cases hd
  · rintro (hneg | ⟨k, w, rest, i, t, n, hk, hw, hop, h4, h5, h6, hec, ⟨m, name, htab⟩, h1, h2, h3⟩)
    · unfold docAt
      rw [if_neg (by omega), if_pos hneg]
    · obtain ⟨hlt, hl⟩ := Lsp.lines_words hr hw
      unfold docAt
      rw [if_neg (by omega), if_neg (by omega), hk, Int.toNat_natCast, hl]
      dsimp only
      have hknown : ∃ e, opsGet w.v = some e := by
        obtain ⟨⟨m, nm, h⟩, _⟩ := htab
        obtain ⟨e, _, he, _⟩ := fieldName_iff.1 h
        exact ⟨e, he⟩
      obtain ⟨e, he⟩ := hknown
      obtain ⟨hm, hwn⟩ := opsGet_mem he
      obtain ⟨f, arr, harg, -⟩ := (tableName_iff he).1 htab
      rw [he]
      dsimp only
      rw [if_neg hop, immAt_iff.2 ⟨h4, h5, h6⟩]
      dsimp only
      rw [(clamp_field hm i f arr).2 harg]
      dsimp only
      rw [fieldDoc_none_iff]
      exact ⟨(field_ec hm harg).2 (by rw [hwn]; exact hec), n, h1, h2, h3⟩

/-- Changes of an open document stop the server if one of them is `null`. -/
theorem applyChanges_none (u : Bytes) (chs : List (Option Bytes)) : ∀ (st : State) (d : Doc), st.docs u = some d →
    (applyChanges st (some u) chs = none ↔ none ∈ chs) := by
  induction chs with
  | nil => intro st d _; simp [applyChanges]
  | cons c chs ih =>
    intro st d hd
    simp only [applyChanges, hd]
    cases c with
    | none => simp
    | some t =>
      dsimp only
      rw [ih (st.put u (some ⟨t, none⟩)) ⟨t, none⟩ (by simp [State.put])]
      simp

/-- What has no answer. -/
theorem answer_none {env : Env} {h : Host} {ch : Choice} {cfg : Config} {u s : Bytes} {r : ProcessResult}
    (hp : process env s = some r) (q : Query) :
    answer h ch cfg u s r q = none ↔ BeforeText q ∨ ∃ p, q = .hover p ∧ OnNegativeField s p := by
  have hints : ∀ rg : Rg, Teal.inlayHints r rg.range = none ↔ rg.start.line < 0 ∧ rg.start.line ≤ rg.stop.line := by
    intro rg
    unfold Teal.inlayHints
    split
    · rename_i h1; exact ⟨fun _ => h1, fun _ => rfl⟩
    · rename_i h1; exact ⟨fun h => (by cases h), fun h => absurd h h1⟩
  cases hq : q with
  | hover p =>
    simp only [answer, Option.map_eq_none_iff, docAt_none hp]
    constructor
    · rintro (h1 | h1)
      · exact .inl (.hover p h1)
      · exact .inr ⟨p, rfl, h1⟩
    · rintro (h1 | ⟨p', h1, h2⟩)
      · cases h1; exact .inl (by assumption)
      · cases h1; exact .inr h2
  | inlayHint rg =>
    simp only [answer, Option.map_eq_none_iff, hints]
    constructor
    · exact fun h1 => .inl (.inlayHint rg h1.1 h1.2)
    · rintro (h1 | ⟨p', h1, h2⟩)
      · cases h1; exact ⟨by assumption, by assumption⟩
      · cases h1
  | codeAction rg =>
    simp only [answer, codeActions, Option.map_eq_none_iff, hints]
    constructor
    · exact fun h1 => .inl (.codeAction rg h1.1 h1.2)
    · rintro (h1 | ⟨p', h1, h2⟩)
      · cases h1; exact ⟨by assumption, by assumption⟩
      · cases h1
  | completion p =>
    by_cases hl : p.line < 0
    · refine ⟨fun _ => .inl (.completion p hl), fun _ => ?_⟩
      simp [answer, completions, hl]
    · obtain ⟨a, ha⟩ := answer_some (h := h) (ch := ch) (cfg := cfg) (u := u) hp (.completion p)
        (by intro l hl'; simp only [Query.lines, List.mem_singleton] at hl'; omega) (by simp [OverNegative])
      rw [ha]
      refine ⟨fun h => (by cases h), ?_⟩
      rintro (h1 | ⟨p', h1, h2⟩)
      · cases h1; contradiction
      · cases h1
  | _ =>
    obtain ⟨a, ha⟩ := answer_some (h := h) (ch := ch) (cfg := cfg) (u := u) hp q
      (by subst hq; intro l hl'; simp [Query.lines] at hl') (by subst hq; simp [OverNegative])
    rw [hq] at ha
    rw [ha]
    refine ⟨fun h => (by cases h), ?_⟩
    rintro (h1 | ⟨p', h1, h2⟩) <;> cases h1

end Teal.Lsp

namespace Teal.Props
open Teal Teal.Spec Teal.Lsp Teal.Lsp.Spec

/-- **C48** (exactly).  A message that is no response stops a running server that was not shut down if and only if it
is one of those described by `Kills`; otherwise it is answered, once and with its id, if and only if it is one of
those described by `Replied`. -/
theorem C48_exact (h : Host) (ms : List (Choice × Msg)) (x : Choice × Msg) (hrun : Running h ms)
    (hshut : ¬ ∃ y ∈ ms, IsShutdown y.2) (hx : x.2.response = false) :
    ((run h (ms ++ [x])).crashed = true ↔ Kills h.addrOk (ms.map (·.2)) x.2.call) ∧
    (¬ Kills h.addrOk (ms.map (·.2)) x.2.call →
      ((∃ s, (run h (ms ++ [x])).sent = (run h ms).sent ++ [s] ∧ responseTo s = some x.2.id) ↔
        Replied (ms.map (·.2)) x.2.call)) := by
  have hs : (run h ms).st.shutdown = false := by
    rw [← Bool.not_eq_true, shutdown_iff h ms hrun]; exact hshut
  have inv := Lsp.session_inv h ms hrun hs
  suffices key : (handle h x.1 (run h ms).st x.2 = none ↔ Kills h.addrOk (ms.map (·.2)) x.2.call) ∧
      ∀ o, handle h x.1 (run h ms).st x.2 = some o →
        ((∃ s, o.sent = [s] ∧ responseTo s = some x.2.id) ↔ Replied (ms.map (·.2)) x.2.call) by
    obtain ⟨k1, k2⟩ := key
    rw [run_running hrun]
    cases hh : handle h x.1 (run h ms).st x.2 with
    | none => exact ⟨⟨fun _ => k1.1 hh, fun _ => rfl⟩, fun hk => absurd (k1.1 hh) hk⟩
    | some o =>
      refine ⟨⟨fun hc => ?_, fun hk => ?_⟩, fun _ => ?_⟩
      · dsimp only at hc
        rw [hrun.1] at hc
        cases hc
      · rw [k1.2 hk] at hh
        cases hh
      · rw [← k2 o hh]
        dsimp only
        simp only [List.append_cancel_left_eq]
  obtain ⟨ch, rsp, id, call⟩ := x
  dsimp only at hx ⊢
  subst hx
  generalize hst : (run h ms).st = st at *
  have hres : ∀ u d, st.docs u = some d → ((results h ch st u d = none ↔ Panics h.addrOk d.s) ∧
      ∀ st' r, results h ch st u d = some (st', r) → ∃ mp, process ⟨h.addrOk, mp⟩ d.s = some r) := by
    intro u d hd
    unfold results
    cases hr : d.res with
    | some r =>
      obtain ⟨y, _, hp⟩ := inv.cache u d r (by rw [hst]; exact hd) hr
      refine ⟨⟨fun h => (by cases h), fun hpn => ?_⟩, ?_⟩
      · rw [hpn] at hp; cases hp
      · intro st' r' h1
        cases h1
        exact ⟨_, hp⟩
    | none =>
      dsimp only
      cases hp : process ⟨h.addrOk, ch.maps⟩ d.s with
      | none => exact ⟨⟨fun _ => panics_any hp, fun _ => rfl⟩, fun st' r' h1 => (by cases h1)⟩
      | some r =>
        refine ⟨⟨fun h => (by cases h), fun hpn => ?_⟩, ?_⟩
        · rw [hpn] at hp; cases hp
        · intro st' r' h1
          cases h1
          exact ⟨_, hp⟩
  have hopen : ∀ u t, Holds (ms.map (·.2)) u t ↔ ∃ d, st.docs u = some d ∧ d.s = t := by
    intro u t
    rw [inv.texts u t, hst]
  -- a call that neither stops the server nor is answered
  have quiet : ∀ (o : Step), handle h ch st ⟨false, id, call⟩ = some o → (∀ s, o.sent = [s] → responseTo s ≠ some id) →
      ¬ Kills h.addrOk (ms.map (·.2)) call → ¬ Replied (ms.map (·.2)) call →
      (handle h ch st ⟨false, id, call⟩ = none ↔ Kills h.addrOk (ms.map (·.2)) call) ∧
      ∀ o, handle h ch st ⟨false, id, call⟩ = some o →
        ((∃ s, o.sent = [s] ∧ responseTo s = some id) ↔ Replied (ms.map (·.2)) call) := by
    intro o h1 h2 h3 h4
    rw [h1]
    refine ⟨⟨fun h => (by cases h), fun h => absurd h h3⟩, ?_⟩
    intro o' h5
    cases h5
    exact ⟨fun ⟨s, h6, h7⟩ => absurd h7 (h2 s h6), fun h => absurd h h4⟩
  have dead : handle h ch st ⟨false, id, call⟩ = none → Kills h.addrOk (ms.map (·.2)) call →
      (handle h ch st ⟨false, id, call⟩ = none ↔ Kills h.addrOk (ms.map (·.2)) call) ∧
      ∀ o, handle h ch st ⟨false, id, call⟩ = some o →
        ((∃ s, o.sent = [s] ∧ responseTo s = some id) ↔ Replied (ms.map (·.2)) call) := by
    intro h1 h2
    rw [h1]
    exact ⟨⟨fun _ => h2, fun _ => rfl⟩, fun o h => (by cases h)⟩
  have replies : ∀ (o : Step) (s : Sent), handle h ch st ⟨false, id, call⟩ = some o → o.sent = [s] → responseTo s = some id →
      ¬ Kills h.addrOk (ms.map (·.2)) call → Replied (ms.map (·.2)) call →
      (handle h ch st ⟨false, id, call⟩ = none ↔ Kills h.addrOk (ms.map (·.2)) call) ∧
      ∀ o, handle h ch st ⟨false, id, call⟩ = some o →
        ((∃ s, o.sent = [s] ∧ responseTo s = some id) ↔ Replied (ms.map (·.2)) call) := by
    intro o s h1 h2 h2' h3 h4
    rw [h1]
    refine ⟨⟨fun h => (by cases h), fun h => absurd h h3⟩, ?_⟩
    intro o' h5
    cases h5
    exact ⟨fun _ => h4, fun _ => ⟨s, h2, h2'⟩⟩
  have nokill : ∀ c, (¬ ∃ u, Analyses u c) → (∀ p, c ≠ .query p) → (∀ p, c ≠ .didOpen p) → (∀ p, c ≠ .didChange p) →
      (∀ p, c ≠ .didClose p) → (∀ p, c ≠ .executeCommand p) → (∀ p, c ≠ .diagnostic p) →
      ¬ Kills h.addrOk (ms.map (·.2)) c := by
    intro c h1 h2 h3 h4 h5 h6 h7 hk
    cases hk with
    | text u t c hu hp ha => exact h1 ⟨u, ha⟩
    | didOpen => exact h3 _ rfl
    | didChange => exact h4 _ rfl
    | didClose => exact h5 _ rfl
    | executeCommand => exact h6 _ rfl
    | noQuery => exact h2 _ rfl
    | noDiagnostic => exact h7 _ rfl
    | nowhere => exact h4 _ rfl
    | null => exact h4 _ rfl
    | line => exact h2 _ rfl
    | number => exact h2 _ rfl
  have noan : ∀ c, (∀ p, c ≠ .query p) → (∀ p, c ≠ .executeCommand p) → (∀ p, c ≠ .diagnostic p) → ¬ ∃ u, Analyses u c := by
    rintro c h1 h2 h3 ⟨u, ha⟩
    cases ha with
    | query => exact h1 _ rfl
    | diagnostic => exact h3 _ rfl
    | _ => exact h2 _ rfl
  have noreply : ∀ c, c ≠ .shutdown → (∀ p, c ≠ .initialize p) → (∀ p, c ≠ .diagnostic p) → (∀ p, c ≠ .query p) →
      (∀ n, c ≠ .unknownCommand n) → ¬ Replied (ms.map (·.2)) c := by
    intro c h1 h2 h3 h4 h5 hr
    cases hr with
    | shutdown => exact h1 rfl
    | «initialize» => exact h2 _ rfl
    | diagnostic => exact h3 _ rfl
    | query => exact h4 _ rfl
    | unknownCommand => exact h5 _ rfl
  cases call with
  | initialized =>
    exact quiet _ rfl (by simp) (nokill _ (noan _ (by simp) (by simp) (by simp)) (by simp) (by simp) (by simp) (by simp) (by simp) (by simp))
      (noreply _ (by simp) (by simp) (by simp) (by simp) (by simp))
  | exit =>
    exact quiet _ rfl (by simp) (nokill _ (noan _ (by simp) (by simp) (by simp)) (by simp) (by simp) (by simp) (by simp) (by simp) (by simp))
      (noreply _ (by simp) (by simp) (by simp) (by simp) (by simp))
  | didSave ok =>
    exact quiet _ rfl (by simp) (nokill _ (noan _ (by simp) (by simp) (by simp)) (by simp) (by simp) (by simp) (by simp) (by simp) (by simp))
      (noreply _ (by simp) (by simp) (by simp) (by simp) (by simp))
  | didOpen p =>
    have hnr := noreply (.didOpen p) (by simp) (by simp) (by simp) (by simp) (by simp)
    cases p with
    | missing => exact dead rfl .didOpen
    | bad => exact quiet _ rfl (by simp) (by intro hk; generalize hc : Call.didOpen .bad = c at hk; cases hk <;> first | (cases hc; done) | (rename_i ha; subst hc; cases ha)) hnr
    | given x => exact quiet _ rfl (by simp) (by intro hk; generalize hc : Call.didOpen (.given x) = c at hk; cases hk <;> first | (cases hc; done) | (rename_i ha; subst hc; cases ha)) hnr
  | didClose p =>
    have hnr := noreply (.didClose p) (by simp) (by simp) (by simp) (by simp) (by simp)
    cases p with
    | missing => exact dead (by simp [handle, handleRequest, hs]) .didClose
    | bad => exact quiet _ (by simp only [handle, handleRequest, hs, Bool.false_eq_true, if_false]; rfl) (by simp) (by intro hk; generalize hc : Call.didClose .bad = c at hk; cases hk <;> first | (cases hc; done) | (rename_i ha; subst hc; cases ha)) hnr
    | given x => exact quiet _ (by simp only [handle, handleRequest, hs, Bool.false_eq_true, if_false]; rfl) (by simp) (by intro hk; generalize hc : Call.didClose (.given x) = c at hk; cases hk <;> first | (cases hc; done) | (rename_i ha; subst hc; cases ha)) hnr
  | shutdown =>
    exact replies _ _ (by simp only [handle, handleRequest, hs, Bool.false_eq_true, if_false]; rfl) rfl rfl
      (nokill _ (noan _ (by simp) (by simp) (by simp)) (by simp) (by simp) (by simp) (by simp) (by simp) (by simp)) .shutdown
  | cancelRequest =>
    exact quiet _ (by simp only [handle, handleRequest, hs, Bool.false_eq_true, if_false]; rfl) (by simp)
      (nokill _ (noan _ (by simp) (by simp) (by simp)) (by simp) (by simp) (by simp) (by simp) (by simp) (by simp))
      (noreply _ (by simp) (by simp) (by simp) (by simp) (by simp))
  | unknown m =>
    exact quiet _ (by simp only [handle, handleRequest, hs, Bool.false_eq_true, if_false]; rfl) (by simp)
      (nokill _ (noan _ (by simp) (by simp) (by simp)) (by simp) (by simp) (by simp) (by simp) (by simp) (by simp))
      (noreply _ (by simp) (by simp) (by simp) (by simp) (by simp))
  | unknownCommand m =>
    exact replies _ _ (by simp only [handle, handleRequest, hs, Bool.false_eq_true, if_false]; rfl) rfl rfl
      (nokill _ (noan _ (by simp) (by simp) (by simp)) (by simp) (by simp) (by simp) (by simp) (by simp) (by simp)) (.unknownCommand m)
  | «initialize» p =>
    have hk := nokill (.initialize p) (noan _ (by simp) (by simp) (by simp)) (by simp) (by simp) (by simp) (by simp) (by simp) (by simp)
    cases p with
    | bad =>
      refine quiet _ (by simp only [handle, handleRequest, hs, Bool.false_eq_true, if_false]; rfl) (by simp) hk ?_
      intro hr
      cases hr with
      | «initialize» _ h => exact h rfl
    | missing =>
      exact replies _ _ (by simp only [handle, handleRequest, hs, Bool.false_eq_true, if_false]; rfl) rfl rfl hk (.initialize _ (by simp))
    | given o =>
      exact replies _ _ (by simp only [handle, handleRequest, hs, Bool.false_eq_true, if_false]; rfl) rfl rfl hk (.initialize _ (by simp))
  | didChange p =>
    have hnr := noreply (.didChange p) (by simp) (by simp) (by simp) (by simp) (by simp)
    cases p with
    | missing => exact dead rfl .didChange
    | bad => exact quiet _ rfl (by simp) (by intro hk; generalize hc : Call.didChange .bad = c at hk; cases hk <;> first | (cases hc; done) | (rename_i ha; subst hc; cases ha)) hnr
    | given x =>
      obtain ⟨uri, chs⟩ := x
      have hmap : handle h ch st ⟨false, id, .didChange (.given (uri, chs))⟩ =
        (applyChanges st uri chs).map fun (st, err) => { st := st, err := err } := rfl
      have hno : ∀ o : Step, handle h ch st ⟨false, id, .didChange (.given (uri, chs))⟩ = some o → o.sent = [] := by
        intro o ho
        rw [hmap] at ho
        obtain ⟨y, -, rfl⟩ := Option.map_eq_some_iff.1 ho
        rfl
      have key : applyChanges st uri chs = none ↔ Kills h.addrOk (ms.map (·.2)) (.didChange (.given (uri, chs))) := by
        cases uri with
        | none =>
          cases chs with
          | nil =>
            refine ⟨fun h => (by cases h), ?_⟩
            intro hk
            generalize hc : Call.didChange (.given (none, [])) = c at hk
            cases hk with
            | nowhere chs h => cases hc; exact absurd rfl h
            | text u t c hu hp ha => subst hc; cases ha
            | _ => cases hc
          | cons c chs => exact ⟨fun _ => .nowhere _ (by simp), fun _ => rfl⟩
        | some u =>
          cases hd : st.docs u with
          | none =>
            refine ⟨fun h => ?_, ?_⟩
            · cases chs with
              | nil => cases h
              | cons c chs => simp [applyChanges, hd] at h
            · intro hk
              generalize hc : Call.didChange (.given (some u, chs)) = c at hk
              cases hk with
              | null u t chs hu h =>
                cases hc
                obtain ⟨d, h1, -⟩ := (hopen _ _).1 hu
                rw [hd] at h1
                cases h1
              | text u t c hu hp ha => subst hc; cases ha
              | _ => cases hc
          | some d =>
            rw [applyChanges_none u chs st d hd]
            refine ⟨fun h => .null u d.s chs ((hopen u d.s).2 ⟨d, hd, rfl⟩) h, ?_⟩
            intro hk
            generalize hc : Call.didChange (.given (some u, chs)) = c at hk
            cases hk with
            | null u t chs hu h => cases hc; exact h
            | text u t c hu hp ha => subst hc; cases ha
            | _ => cases hc
      cases ha : applyChanges st uri chs with
      | none => exact dead (by rw [hmap, ha]; rfl) (key.1 ha)
      | some y =>
        have hh : handle h ch st ⟨false, id, .didChange (.given (uri, chs))⟩ = some { st := y.1, err := y.2 } := by rw [hmap, ha]; rfl
        exact quiet _ hh (by simp) (fun hk => by rw [key.2 hk] at ha; cases ha) hnr
  | executeCommand p =>
    have hnr := noreply (.executeCommand p) (by simp) (by simp) (by simp) (by simp) (by simp)
    have hh : handle h ch st ⟨false, id, .executeCommand p⟩ = handleRequest h ch st id (.executeCommand p) := by
      simp only [handle, hs, Bool.false_eq_true, if_false]
    cases p with
    | missing => exact dead hh .executeCommand
    | bad =>
      refine quiet _ hh (by simp) ?_ hnr
      intro hk
      generalize hc : Call.executeCommand .bad = c at hk
      cases hk with
      | text u t c hu hp ha => subst hc; cases ha
      | _ => cases hc
    | given a =>
      -- the commands that look at the text
      have looks : ∀ (u : Bytes) (d : Doc) (c : Command) (f : State × ProcessResult → Step), st.docs u = some d →
          Analyses u (.executeCommand (.given (some [c]))) → a = some [c] →
          execute h ch st c = (results h ch st u d).map f → (∀ y s, (f y).sent = [s] → responseTo s = none) →
          (∀ u', Analyses u' (.executeCommand (.given (some [c]))) → u' = u) →
          (handle h ch st ⟨false, id, .executeCommand (.given a)⟩ = none ↔ Kills h.addrOk (ms.map (·.2)) (.executeCommand (.given a))) ∧
          ∀ o, handle h ch st ⟨false, id, .executeCommand (.given a)⟩ = some o →
            ((∃ s, o.sent = [s] ∧ responseTo s = some id) ↔ Replied (ms.map (·.2)) (.executeCommand (.given a))) := by
        intro u d c f hd han ha hex hf huniq
        subst ha
        have hh' : handle h ch st ⟨false, id, .executeCommand (.given (some [c]))⟩ = execute h ch st c := hh
        obtain ⟨h1, -⟩ := hres u d hd
        cases hr : results h ch st u d with
        | none =>
          exact dead (by rw [hh', hex, hr]; rfl) (.text u d.s _ ((hopen u d.s).2 ⟨d, hd, rfl⟩) (h1.1 hr) han)
        | some y =>
          refine quiet (f y) (by rw [hh', hex, hr]; rfl) (fun s hs' => by rw [hf y s hs']; simp) ?_ hnr
          intro hk
          generalize hc : Call.executeCommand (.given (some [c])) = c' at hk
          cases hk with
          | text u' t c' hu hp ha =>
            subst hc
            have := huniq u' ha
            subst this
            obtain ⟨d', h2, h3⟩ := (hopen _ _).1 hu
            rw [hd] at h2
            cases h2
            subst h3
            rw [h1.2 hp] at hr
            cases hr
          | _ => cases hc
      -- the commands that do not
      have other : ∀ o, handleRequest h ch st id (.executeCommand (.given a)) = some o → (∀ s, o.sent = [s] → responseTo s = none) →
          (∀ u t, Holds (ms.map (·.2)) u t → ¬ Analyses u (.executeCommand (.given a))) →
          (handle h ch st ⟨false, id, .executeCommand (.given a)⟩ = none ↔ Kills h.addrOk (ms.map (·.2)) (.executeCommand (.given a))) ∧
          ∀ o, handle h ch st ⟨false, id, .executeCommand (.given a)⟩ = some o →
            ((∃ s, o.sent = [s] ∧ responseTo s = some id) ↔ Replied (ms.map (·.2)) (.executeCommand (.given a))) := by
        intro o ho hsent hna
        refine quiet o (hh.trans ho) (fun s hs' => by rw [hsent s hs']; simp) ?_ hnr
        intro hk
        generalize hc : Call.executeCommand (.given a) = c' at hk
        cases hk with
        | text u t c' hu hp ha => subst hc; exact hna u t hu ha
        | _ => cases hc
      have closed : ∀ u, st.docs u = none → ∀ t, ¬ Holds (ms.map (·.2)) u t := by
        intro u hd t hu
        obtain ⟨d, h1, -⟩ := (hopen _ _).1 hu
        rw [hd] at h1
        cases h1
      rcases a with _ | ⟨_ | ⟨c, _ | ⟨c2, cs⟩⟩⟩
      · exact other { st := st, err := true } rfl (by intro s h1; cases h1) (fun u t hu ha => by cases ha)
      · exact other { st := st, err := true } rfl (by intro s h1; cases h1) (fun u t hu ha => by cases ha)
      rotate_left
      · exact other { st := st, err := true } rfl (by intro s h1; cases h1) (fun u t hu ha => by cases ha)
      · cases c with
        | versionUpdate u v =>
          cases hd : st.docs u with
          | none =>
            exact other { st := st, err := true } (by simp [handleRequest, execute, hd]) (by simp)
              (fun u' t hu ha => by cases ha; exact closed _ hd t hu)
          | some d =>
            exact looks u d _ _ hd (.versionUpdate v) rfl (by simp only [execute, hd]; rfl) (by intro y s h1; cases h1; rfl)
              (fun u' ha => by cases ha; rfl)
        | labelRemove u v =>
          cases hd : st.docs u with
          | none =>
            exact other { st := st, err := true } (by simp [handleRequest, execute, hd]) (by simp)
              (fun u' t hu ha => by cases ha; exact closed _ hd t hu)
          | some d =>
            exact looks u d _ _ hd (.labelRemove v) rfl (by simp only [execute, hd]; rfl) (by intro y s h1; cases h1; rfl)
              (fun u' ha => by cases ha; rfl)
        | labelCreate u v =>
          cases hd : st.docs u with
          | none =>
            exact other { st := st, err := true } (by simp [handleRequest, execute, hd]) (by simp)
              (fun u' t hu ha => by cases ha; exact closed _ hd t hu)
          | some d =>
            exact looks u d _ _ hd (.labelCreate v) rfl (by simp only [execute, hd]; rfl) (by intro y s h1; cases h1; rfl)
              (fun u' ha => by cases ha; rfl)
        | valueReplace u rg v =>
          cases hd : st.docs u with
          | none =>
            exact other { st := st, err := true } (by simp [handleRequest, execute, hd]) (by simp) (fun u' t hu ha => by cases ha)
          | some d =>
            exact other _ (by simp only [handleRequest, execute, hd]; rfl) (by intro s h1; cases h1; rfl) (fun u' t hu ha => by cases ha)
        | lineRemove u l =>
          cases hd : st.docs u with
          | none =>
            exact other { st := st, err := true } (by simp [handleRequest, execute, hd]) (by simp) (fun u' t hu ha => by cases ha)
          | some d =>
            exact other _ (by simp only [handleRequest, execute, hd]; rfl) (by intro s h1; cases h1; rfl) (fun u' t hu ha => by cases ha)
  | diagnostic p =>
    have hh : handle h ch st ⟨false, id, .diagnostic p⟩ = handleRequest h ch st id (.diagnostic p) := by
      simp only [handle, hs, Bool.false_eq_true, if_false]
    cases p with
    | missing => exact dead hh .noDiagnostic
    | bad =>
      refine quiet _ hh (by simp) ?_ (by intro hr; cases hr)
      intro hk
      generalize hc : Call.diagnostic .bad = c at hk
      cases hk with
      | text u t c hu hp ha => subst hc; cases ha
      | _ => cases hc
    | given u =>
      cases hd : st.docs u with
      | none =>
        refine replies _ _ (hh.trans (by simp only [handleRequest, hd]; rfl)) rfl rfl ?_ (.diagnostic u)
        intro hk
        generalize hc : Call.diagnostic (.given u) = c' at hk
        cases hk with
        | text u' t c' hu hp ha =>
          subst hc
          cases ha
          obtain ⟨d, h1, -⟩ := (hopen _ _).1 hu
          rw [hd] at h1
          cases h1
        | _ => cases hc
      | some d =>
        obtain ⟨h1, -⟩ := hres u d hd
        cases hr : results h ch st u d with
        | none =>
          exact dead (hh.trans (by simp only [handleRequest, hd, hr]; rfl)) (.text u d.s _ ((hopen u d.s).2 ⟨d, hd, rfl⟩) (h1.1 hr) .diagnostic)
        | some y =>
          refine replies _ _ (hh.trans (by simp only [handleRequest, hd, hr]; rfl)) rfl rfl ?_ (.diagnostic u)
          intro hk
          generalize hc : Call.diagnostic (.given u) = c' at hk
          cases hk with
          | text u' t c' hu hp ha =>
            subst hc
            cases ha
            obtain ⟨d', h2, h3⟩ := (hopen _ _).1 hu
            rw [hd] at h2
            cases h2
            subst h3
            rw [h1.2 hp] at hr
            cases hr
          | _ => cases hc
  | query p =>
    have hh : handle h ch st ⟨false, id, .query p⟩ = handleRequest h ch st id (.query p) := by
      simp only [handle, hs, Bool.false_eq_true, if_false]
    cases p with
    | missing => exact dead hh .noQuery
    | bad =>
      refine quiet _ hh (by simp) ?_ (by intro hr; cases hr)
      intro hk
      generalize hc : Call.query .bad = c at hk
      cases hk with
      | text u t c hu hp ha => subst hc; cases ha
      | _ => cases hc
    | given uq =>
      obtain ⟨u, q⟩ := uq
      cases hd : st.docs u with
      | none =>
        have closed : ∀ t, ¬ Holds (ms.map (·.2)) u t := by
          intro t hu
          obtain ⟨d, h1, -⟩ := (hopen _ _).1 hu
          rw [hd] at h1
          cases h1
        refine quiet _ (hh.trans (by simp only [handleRequest, hd]; rfl)) (by simp) ?_ (by intro hr; cases hr; exact closed _ (by assumption))
        intro hk
        generalize hc : Call.query (.given (u, q)) = c' at hk
        cases hk with
        | text u' t c' hu hp ha => subst hc; cases ha; exact closed _ hu
        | line u' t q hu h => cases hc; exact closed _ hu
        | number u' t p hu h => cases hc; exact closed _ hu
        | _ => cases hc
      | some d =>
        have hu := (hopen u d.s).2 ⟨d, hd, rfl⟩
        obtain ⟨h1, h2⟩ := hres u d hd
        cases hr : results h ch st u d with
        | none =>
          exact dead (hh.trans (by simp only [handleRequest, hd, hr])) (.text u d.s _ hu (h1.1 hr) (.query q))
        | some y =>
          obtain ⟨st', r⟩ := y
          obtain ⟨mp, hp⟩ := h2 st' r hr
          have h3 := answer_none (h := h) (ch := ch) (cfg := st'.config) (u := u) hp q
          cases ha : answer h ch st'.config u d.s r q with
          | none =>
            refine dead (hh.trans (by simp only [handleRequest, hd, hr, ha]; rfl)) ?_
            rcases h3.1 ha with h4 | ⟨p, rfl, h4⟩
            · exact .line u d.s q hu h4
            · exact .number u d.s p hu h4
          | some a =>
            refine replies _ _ (hh.trans (by simp only [handleRequest, hd, hr, ha]; rfl)) rfl rfl ?_ (.query u d.s q hu)
            have same : ∀ t, Holds (ms.map (·.2)) u t → t = d.s := by
              intro t ht
              obtain ⟨d', h4, h5⟩ := (hopen _ _).1 ht
              rw [hd] at h4
              cases h4
              exact h5.symm
            intro hk
            generalize hc : Call.query (.given (u, q)) = c' at hk
            cases hk with
            | text u' t c' hu hp ha =>
              subst hc
              cases ha
              rw [same t hu] at hp
              rw [h1.2 hp] at hr
              cases hr
            | line u' t q hu h4 =>
              cases hc
              rw [h3.2 (.inl h4)] at ha
              cases ha
            | number u' t p hu h4 =>
              cases hc
              rw [same t hu] at h4
              rw [h3.2 (.inr ⟨_, rfl, h4⟩)] at ha
              cases ha
            | _ => cases hc

/-- On an open document a hover before the first line stops the server, and so does one over a negative number; a
document symbol request is answered. -/
example : (Running sampleHost (openSession b!"txn -1") ∧ ¬ ∃ y ∈ openSession b!"txn -1", IsShutdown y.2) ∧
    (run sampleHost (openSession b!"txn -1" ++ [(sampleChoice, ⟨false, b!"9", .query (.given (b!"u", .hover ⟨-1, 0⟩))⟩)])).crashed = true ∧
    Kills sampleHost.addrOk ((openSession b!"txn -1").map (·.2)) (.query (.given (b!"u", .hover ⟨-1, 0⟩))) ∧
    (run sampleHost (openSession b!"txn -1" ++ [(sampleChoice, ⟨false, b!"9", .query (.given (b!"u", .hover ⟨0, 5⟩))⟩)])).crashed = true ∧
    Kills sampleHost.addrOk ((openSession b!"txn -1").map (·.2)) (.query (.given (b!"u", .hover ⟨0, 5⟩))) ∧
    Replied ((openSession b!"txn -1").map (·.2)) (.query (.given (b!"u", .documentSymbol))) := by
  have ho : Holds ((openSession b!"txn -1").map (·.2)) b!"u" b!"txn -1" :=
    .opened [] [] ⟨false, b!"null", .didOpen (.given (b!"u", b!"txn -1"))⟩ _ _ ⟨rfl, rfl⟩ (by simp)
  have hrun : Running sampleHost (openSession b!"txn -1") := ⟨rfl, rfl⟩
  have hns : ¬ ∃ y ∈ openSession b!"txn -1", IsShutdown y.2 := by
    rintro ⟨y, hy, h1, h2⟩
    simp only [openSession, List.mem_singleton] at hy
    subst hy
    cases h2
  have hc : (run sampleHost (openSession b!"txn -1" ++ [(sampleChoice, ⟨false, b!"9", .query (.given (b!"u", .hover ⟨0, 5⟩))⟩)])).crashed = true := by
    decide +kernel
  exact ⟨⟨hrun, hns⟩, by decide +kernel, .line _ _ _ ho (.hover _ (by decide)), hc,
    (C48_exact sampleHost _ (sampleChoice, ⟨false, b!"9", .query (.given (b!"u", .hover ⟨0, 5⟩))⟩) hrun hns rfl).1.1 hc, .query _ _ _ ho⟩

end Teal.Props
