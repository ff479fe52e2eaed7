import Verif.Spec.HintsExact
import Verif.Props.Hints
import Verif.Lemmas.LineEdit

/-!
# Exactly when the name of a field can be written for its number
-/

namespace Teal.Lsp

open Teal Teal.Spec Teal.Lsp.Spec Teal.Props

/-- Reading fails at a field that is not read. -/
theorem eval_unset {addrOk : Bytes → Bool} {sh : Shape} {i : Nat} {rd : FieldReader} {b : Bool} (hargs : sh.args[i]? = some ⟨.field rd, b⟩)
    {ver : Nat} {ws : List Bytes} {y : Bytes} (hws : ws[i]? = some y) (hy : P.readFieldWith rd ver y = none) :
    evalShape addrOk sh ver ws = none := by
  rw [Option.eq_none_iff_forall_ne_some]
  rintro ⟨o, rest⟩ hev
  have key : ∀ ws m ws', Reader.word (fun v s => (P.readFieldWith rd v s).map (·.field)) ver (y :: ws) = some (m, ws') → False := by
    intro ws m ws' h
    obtain ⟨a, h1, -⟩ := Option.map_eq_some_iff.1 (show ((P.readFieldWith rd ver y).map (·.field)).map _ = some (m, ws') from h)
    rw [hy] at h1
    cases h1
  cases sh <;> simp only [Shape.args] at hargs <;>
    first
    | (exfalso; revert hargs; rcases i with _ | _ | _ | i <;> simp; done)
    | skip
  all_goals
    rcases i with _ | _ | _ | i <;> simp at hargs
    obtain ⟨rfl, rfl⟩ := hargs
  all_goals
    first
    | obtain ⟨ws, rfl⟩ := head_of hws
      simp only [evalShape, bind_some] at hev
      obtain ⟨m, ws', h1, h2⟩ := hev
      exact key ws m ws' h1
    | obtain ⟨z, ws, rfl⟩ := second_of hws
      simp only [evalShape, bind_some] at hev
      obtain ⟨m, ws', h1, m2, ws2, h2, h3⟩ := hev
      obtain ⟨hz, rfl⟩ := word_some h1
      exact key ws m2 ws2 h2

theorem since_field : ∀ x ∈ fieldOps, ∀ y ∈ fieldOps, x.1 = y.1 → ∀ d ∈ x.2.1, ∀ d' ∈ y.2.1, d.name = d'.name → d.since = d'.since := by
  decide +kernel

theorem since_txn : ∀ d ∈ txnFields, ∀ d' ∈ txnFields, d.name = d'.name → d.since = d'.since ∧ d.inner = d'.inner := by decide +kernel

theorem fieldOps_inner : b!"itxn_field" ∉ fieldOps.map (·.1) := by decide +kernel

/-- A name that may not be written is not read. -/
theorem unnamed_reads {w : Bytes} {i n ver : Nat} {name : Bytes} (h : FieldName w i n name) (hk : ¬ Nameable ver w name) :
    ∃ e rd, opsGet w = some e ∧ e.shape.args[i]? = some ⟨.field rd, false⟩ ∧ P.readFieldWith rd ver name = none := by
  have key : ∀ (rd : FieldReader) (w : Bytes) (i : Nat), ((opsGet w).bind fun e => e.shape.args[i]?) = some ⟨.field rd, false⟩ →
      P.readFieldWith rd ver name = none →
      ∃ e rd, opsGet w = some e ∧ e.shape.args[i]? = some ⟨.field rd, false⟩ ∧ P.readFieldWith rd ver name = none := by
    intro rd w i h1 h2
    obtain ⟨e, h3, h4⟩ := Option.bind_eq_some_iff.1 h1
    exact ⟨e, rd, h3, h4, h2⟩
  have ktxn : ∀ d, txnFields[n]? = some d → d.name = name → ¬ d.since ≤ ver → P.readFieldWith (.txn .txn) ver name = none := by
    intro d hd he hs
    show readTxnField .txn ver name = none
    rw [← he, C15_txn_version ver n d hd, if_neg hs]
  have kw : ∀ w, ¬ Nameable ver w name → w ≠ b!"itxn_field" → w ∉ fieldOps.map (·.1) → ∀ d, txnFields[n]? = some d → d.name = name → ¬ d.since ≤ ver := by
    intro w hk h1 h2 d hd he hs
    refine hk (.inr ⟨fun names k h => ?_, fun h => absurd h h1, fun _ _ d' hd' he' => ?_⟩)
    · exact absurd (List.mem_map.2 ⟨_, h, rfl⟩) h2
    · rw [(since_txn d' hd' d (List.mem_of_getElem? hd) (he'.trans he.symm)).1]
      exact hs
  cases h with
  | field w names k n d h hd =>
    obtain ⟨g, h1, h2⟩ := fieldOps_args _ h
    obtain ⟨e, h3, h4⟩ := Option.map_eq_some_iff.1 h1
    refine key (.group g) w 0 (by rw [h3, Option.bind_some, h4]; rfl) ?_
    have hs : ¬ d.since ≤ ver := by
      intro hs
      refine hk (.inr ⟨fun names' k' h' d' hd' he' => ?_, fun h' => ?_, fun _ h' => ?_⟩)
      · have := since_field _ h' _ h rfl d' hd' d (List.mem_of_getElem? hd) he'
        omega
      · exact absurd (List.mem_map.2 ⟨_, h, h'⟩) fieldOps_inner
      · exact absurd (List.mem_map.2 ⟨_, h, rfl⟩) h'
    simp only at h2
    rw [← h2] at hd
    show readField g ver d.name = none
    rw [C15_field_version g ver n d hd, if_neg hs]
  | txn w n d h hd =>
    refine key (.txn .txn) w 0 ?_ (ktxn d hd rfl (kw w hk ?_ ?_ d hd rfl))
    · clear key kw ktxn hk; revert h; revert w; decide +kernel
    · clear key kw ktxn hk; revert h; revert w; decide +kernel
    · clear key kw ktxn hk; revert h; revert w; decide +kernel
  | inner n d hd hi =>
    refine key (.txn .itxn) b!"itxn_field" 0 (by decide +kernel) ?_
    obtain ⟨m, hm⟩ := Option.ne_none_iff_exists'.1 hi
    show readTxnField .itxn ver d.name = none
    rw [C15_itxn_version ver n d hd, hm]
    refine if_neg fun hs => hk (.inr ⟨fun names k h => ?_, fun _ d' hd' he' n' hn' => ?_, fun h => absurd rfl h⟩)
    · exact absurd (List.mem_map.2 ⟨_, h, rfl⟩) fieldOps_inner
    · rw [(since_txn d' hd' d (List.mem_of_getElem? hd) he').2, hm] at hn'
      injection hn' with hn'
      omega
  | array w n d h hd ha =>
    refine absurd (.inl ?_) hk
    clear key kw ktxn hk; revert h; revert w; decide +kernel
  | group w n d h hd =>
    refine key (.txn .txn) w 1 ?_ (ktxn d hd rfl (kw w hk ?_ ?_ d hd rfl))
    · clear key kw ktxn hk; revert h; revert w; decide +kernel
    · clear key kw ktxn hk; revert h; revert w; decide +kernel
    · clear key kw ktxn hk; revert h; revert w; decide +kernel
  | groupArray w n d h hd ha =>
    refine absurd (.inl ?_) hk
    clear key kw ktxn hk; revert h; revert w; decide +kernel

/-- A name that may be written is read. -/
theorem named_reads {w : Bytes} {i n ver : Nat} {name : Bytes} (h : FieldName w i n name) (hk : Nameable ver w name) :
    ∃ e rd, opsGet w = some e ∧ e.shape.args[i]? = some ⟨.field rd, false⟩ ∧ (P.readFieldWith rd ver name).map (·.field) = some n := by
  rcases hk with hk | hk
  · have key : ∀ (rd : FieldReader) (w : Bytes) (i : Nat), ((opsGet w).bind fun e => e.shape.args[i]?) = some ⟨.field rd, false⟩ →
        (P.readFieldWith rd ver name).map (·.field) = some n →
        ∃ e rd, opsGet w = some e ∧ e.shape.args[i]? = some ⟨.field rd, false⟩ ∧ (P.readFieldWith rd ver name).map (·.field) = some n := by
      intro rd w i h1 h2
      obtain ⟨e, h3, h4⟩ := Option.bind_eq_some_iff.1 h1
      exact ⟨e, rd, h3, h4, h2⟩
    have karr : ∀ d, txnFields[n]? = some d → d.array = true → (P.readFieldWith (.txn .txna) ver d.name).map (·.field) = some n := by
      intro d hd ha
      show (readTxnField .txna ver d.name).map _ = _
      rw [C15_txna_partial ver n d hd, ha]; rfl
    have hno : ∀ w ∈ arrayOps, w ∉ fieldOps.map (·.1) ∧ w ∉ [b!"txn", b!"gtxns", b!"itxn"] ∧ w ≠ b!"itxn_field" ∧ w ∉ [b!"gtxn", b!"gitxn"] := by
      decide +kernel
    cases h with
    | field w names k n d h hd => exact absurd (List.mem_map.2 ⟨_, h, rfl⟩) (hno _ hk).1
    | txn w n d h hd => exact absurd h (hno _ hk).2.1
    | inner n d hd hi => exact absurd rfl (hno _ hk).2.2.1
    | group w n d h hd => exact absurd h (hno _ hk).2.2.2
    | array w n d h hd ha =>
      refine key (.txn .txna) w 0 ?_ (karr d hd ha)
      clear key karr hk hno; revert h; revert w; decide +kernel
    | groupArray w n d h hd ha =>
      refine key (.txn .txna) w 1 ?_ (karr d hd ha)
      clear key karr hk hno; revert h; revert w; decide +kernel
  · exact name_reads h hk

theorem ops_nameable {addrOk : Bytes → Bool} {ver : Nat} {w : Bytes} {ws : List Bytes} {o : Op} {i n : Nat} {x name : Bytes}
    (h : opsOf addrOk ver (w :: ws) = [o]) (ho : o ≠ .empty) (hf : FieldName w i n name) (hx : ws[i]? = some x)
    (hn : SignedDecimal x n) (hk : Nameable ver w name) : opsOf addrOk ver (w :: ws.set i name) = [o] := by
  obtain ⟨e, rd, he, ha, hr⟩ := named_reads hf hk
  obtain ⟨hm, rfl⟩ := opsGet_mem he
  obtain ⟨p1, p2⟩ := opcode_plain e hm
  rw [opsOf, if_neg p1, if_neg p2, he] at h
  rw [opsOf, if_neg p1, if_neg p2, he]
  dsimp only at h ⊢
  match hev : evalShape addrOk e.shape ver ws with
  | none => rw [hev] at h; exact absurd (by simpa [readOps] using h.symm) ho
  | some (o', []) =>
    rw [eval_set ha hx hev fun m hm => by rw [number_reads hn hm]; exact hr]
    rw [hev] at h
    exact h
  | some (o', _ :: _) => rw [hev] at h; simp [readOps] at h

theorem ops_unnameable {addrOk : Bytes → Bool} {ver : Nat} {w : Bytes} {ws : List Bytes} {i n : Nat} {x name : Bytes}
    (hf : FieldName w i n name) (hx : ws[i]? = some x) (hk : ¬ Nameable ver w name) : opsOf addrOk ver (w :: ws.set i name) = [.empty] := by
  obtain ⟨e, rd, he, ha, hr⟩ := unnamed_reads hf hk
  obtain ⟨hm, rfl⟩ := opsGet_mem he
  obtain ⟨p1, p2⟩ := opcode_plain e hm
  rw [opsOf, if_neg p1, if_neg p2, he]
  dsimp only
  rw [eval_unset ha (ws := ws.set i name) (y := name) ?_ hr]
  · rfl
  · rw [List.getElem?_set_self]
    exact (List.getElem?_eq_some_iff.1 hx).1

/-! ## Byte constants -/

theorem writes_bytes {bs : Bytes} (h : bs.getLast? ≠ some 92) : Writes (quoted bs) (34 :: (bs ++ [34])) := by
  have h1 : Unescaped (bs.flatMap fun c => if c = 34 then [92, 34] else [c]) bs := by
    clear h
    induction bs with
    | nil => exact .nil
    | cons c bs ih =>
      rw [List.flatMap_cons]
      by_cases hc : c = 34
      · subst hc
        exact .esc _ _ ih
      · rw [if_neg hc]
        refine .keep c _ _ (fun h' => ?_) ih
        obtain ⟨-, h'⟩ := h'
        cases bs with
        | nil => cases h'
        | cons d bs =>
          by_cases hd : d = 34
          · subst hd; cases h'
          · rw [List.flatMap_cons, if_neg hd] at h'
            exact hd (by simpa using h')
  have h2 : ∀ p, NoQuote p (bs.flatMap fun c => if c = 34 then [92, 34] else [c]) := by
    clear h1 h
    induction bs with
    | nil => exact fun p => .nil p
    | cons c bs ih =>
      intro p
      rw [List.flatMap_cons]
      by_cases hc : c = 34
      · subst hc
        exact .cons _ _ _ (fun h => by cases h) (.cons _ _ _ (fun _ => rfl) (ih _))
      · rw [if_neg hc]
        exact .cons _ _ _ (fun h => absurd h hc) (ih _)
  have h3 : lastByte (bs.flatMap fun c => if c = 34 then [92, 34] else [c]) ≠ chBackslash := by
    rcases List.eq_nil_or_concat bs with rfl | ⟨l, c, rfl⟩
    · decide
    · rw [List.concat_eq_append] at h ⊢
      rw [List.flatMap_append]
      unfold lastByte
      by_cases hc : c = 34
      · subst hc
        rw [List.getLast?_append]
        simp [chBackslash]
      · rw [List.getLast?_append]
        have : c ≠ 92 := by simpa using h
        simp [hc, chBackslash, this]
  exact .quoted _ _ h1 (h2 _) h3

theorem denotes_length {s v : Bytes} (h : Denotes s v) : v.length ≤ s.length ∧ (92 ∈ s → v.length < s.length) := by
  induction h with
  | nil => simp
  | plain c s bs hc h ih =>
    refine ⟨by simpa using ih.1, fun hm => ?_⟩
    rcases List.mem_cons.1 hm with e | hm
    · exact absurd e.symm hc
    · simpa using ih.2 hm
  | escape c v s bs hc h ih => constructor <;> simp <;> omega
  | hex p q a b s bs hp hq h ih => constructor <;> simp <;> omega

/-- The word in quotes stands for at most one value, and not for itself if there is a backslash in it. -/
theorem quoted_alone (bs : Bytes) : ∃ g : Option Bytes, (∀ ws, bytesAt (34 :: (bs ++ [34])) ws = g.map fun a => (a, ws)) ∧
    (92 ∈ bs → g ≠ some bs) := by
  obtain ⟨g, hg⟩ := bytesAt_alone (w := 34 :: (bs ++ [34])) (by simp)
  refine ⟨g, hg, ?_⟩
  rintro hm rfl
  have h := hg []
  have hd : Denotes bs bs := by
    unfold bytesAt at h
    rw [if_neg (by simp [P.hasPrefix, List.isPrefixOf]), if_neg (by simp [P.hasPrefix, List.isPrefixOf]),
      if_neg (by simp [P.hasPrefix, List.isPrefixOf]), if_neg (by simp), if_neg (by simp),
      if_pos ⟨by simp, by simp [chQuote], by rw [← List.cons_append, List.getLast?_append]; simp [chQuote]⟩] at h
    rw [← parseStringLiteral_quoted bs bs]
    cases hp : parseStringLiteral (34 :: (bs ++ [34])) with
    | ok v => rw [hp] at h; simp at h; rw [h]
    | err => rw [hp] at h; cases h
    | crash => rw [hp] at h; cases h
  exact Nat.lt_irrefl _ ((denotes_length hd).2 hm)

theorem many_change {x y bs : Bytes} {g : Option Bytes} (hgx : ∀ ws, bytesAt x ws = some (bs, ws)) (hgy : ∀ ws, bytesAt y ws = g.map fun a => (a, ws))
    (hne : g ≠ some bs) (fuel : Nat) : ∀ (ws : List Bytes) (i : Nat) (vs : List Bytes), ws[i]? = some x →
      (∀ (j : Nat) p, i = j + 1 → ws[j]? = some p → p ∉ [b!"base32", b!"b32", b!"base64", b!"b64"]) →
      Reader.many bytesAt fuel ws = some vs → Reader.many bytesAt fuel (ws.set i y) ≠ some vs := by
  induction fuel with
  | zero =>
    intro ws i vs hi _ h
    cases ws with
    | nil => cases hi
    | cons w ws => cases h
  | succ fuel ih =>
    intro ws i vs hi hprev h
    cases ws with
    | nil => cases hi
    | cons w ws =>
      cases i with
      | zero =>
        simp only [List.getElem?_cons_zero, Option.some.injEq] at hi
        subst hi
        rw [Reader.many, hgx] at h
        rw [List.set_cons_zero, Reader.many, hgy]
        dsimp only at h
        obtain ⟨vs', h1, rfl⟩ := Option.map_eq_some_iff.1 h
        cases g with
        | none => simp
        | some a =>
          simp only [Option.map_some, h1]
          intro he
          injection he with he
          injection he with he
          exact hne (by rw [he])
      | succ i =>
        rw [List.getElem?_cons_succ] at hi
        rw [Reader.many] at h
        rw [List.set_cons_succ, Reader.many]
        by_cases hw : w ∈ [b!"base32", b!"b32", b!"base64", b!"b64"]
        · cases i with
          | zero => exact absurd hw (hprev 0 w rfl rfl)
          | succ i =>
            obtain ⟨f, hf⟩ := bytesAt_pair hw
            cases ws with
            | nil => cases hi
            | cons z ws =>
              rw [hf] at h
              rw [List.set_cons_succ, hf]
              dsimp only at h ⊢
              cases hz : f z with
              | none => simp
              | some a =>
                rw [hz] at h
                simp only [Option.map_some] at h ⊢
                obtain ⟨vs', h1, rfl⟩ := Option.map_eq_some_iff.1 h
                have := ih ws i vs' (by simpa using hi) (fun j p hj hp => hprev (j + 2) p (by omega) (by simpa using hp)) h1
                intro he
                obtain ⟨vs2, h2, h3⟩ := Option.map_eq_some_iff.1 he
                injection h3 with _ h3
                subst h3
                exact this h2
        · obtain ⟨f, hf⟩ := bytesAt_alone hw
          rw [hf] at h ⊢
          cases f with
          | none => simp
          | some a =>
            simp only [Option.map_some] at h ⊢
            obtain ⟨vs', h1, rfl⟩ := Option.map_eq_some_iff.1 h
            have := ih ws i vs' hi (fun j p hj hp => hprev (j + 1) p (by omega) (by simpa using hp)) h1
            intro he
            obtain ⟨vs2, h2, h3⟩ := Option.map_eq_some_iff.1 he
            injection h3 with _ h3
            subst h3
            exact this h2

/-- Another byte constant. -/
theorem ops_changed {addrOk : Bytes → Bool} {ver : Nat} {w : Bytes} {ws : List Bytes} {o : Op} {i : Nat} {x y bs : Bytes} {g : Option Bytes}
    (h : opsOf addrOk ver (w :: ws) = [o]) (ho : o ≠ .empty) (hw : w ∈ byteConstOps) (hi : ws[i]? = some x)
    (hgx : ∀ ws, bytesAt x ws = some (bs, ws)) (hgy : ∀ ws, bytesAt y ws = g.map fun a => (a, ws)) (hne : g ≠ some bs)
    (hprev : ∀ p, (w :: ws)[i]? = some p → p ∉ [b!"base32", b!"b32", b!"base64", b!"b64"]) :
    ∃ o', opsOf addrOk ver (w :: ws.set i y) = [o'] ∧ o' ≠ o := by
  have hpre : ∀ (j : Nat) p, i = j + 1 → ws[j]? = some p → p ∉ [b!"base32", b!"b32", b!"base64", b!"b64"] := by
    rintro j p rfl hp
    exact hprev p (by rw [List.getElem?_cons_succ]; exact hp)
  obtain ⟨sh, hshape, hcase⟩ : ∃ sh, (opsGet w).map (·.shape) = some sh ∧ (sh = .byte ∨ sh = .pushbytes ∨ sh = .bytecblock ∨ sh = .pushbytess) := by
    rcases byteShapes w hw with h | h | h | h <;> exact ⟨_, h, by simp⟩
  obtain ⟨e, he, hsh⟩ := shape_of hshape
  obtain ⟨hm, rfl⟩ := opsGet_mem he
  obtain ⟨p1, p2⟩ := opcode_plain e hm
  rw [opsOf, if_neg p1, if_neg p2, he] at h
  rw [opsOf, if_neg p1, if_neg p2, he]
  dsimp only at h ⊢
  rw [hsh] at h ⊢
  have hev : evalShape addrOk sh ver ws = some (o, []) := by
    match hev : evalShape addrOk sh ver ws with
    | none => rw [hev] at h; exact absurd (by simpa [readOps] using h.symm) ho
    | some (o', []) => rw [hev] at h; simp only [readOps, List.cons.injEq, and_true] at h; rw [h]
    | some (o', _ :: _) => rw [hev] at h; simp [readOps] at h
  suffices hs : evalShape addrOk sh ver (ws.set i y) = none ∨ ∃ o', evalShape addrOk sh ver (ws.set i y) = some (o', []) ∧ o' ≠ o by
    rcases hs with hs | ⟨o', hs, hne⟩
    · exact ⟨.empty, by rw [hs]; rfl, ho.symm⟩
    · exact ⟨o', by rw [hs]; rfl, hne⟩
  have hone : ∀ v, Reader.bytes ver ws = some (v, []) → v = bs ∧ Reader.bytes ver (ws.set i y) = g.map fun a => (a, []) := by
    intro v h1
    have h2 := bytes_set (x := x) (y := x) (fun _ => rfl) hi hpre h1
    cases ws with
    | nil => cases hi
    | cons w' ws' =>
      cases i with
      | zero =>
        simp only [List.getElem?_cons_zero, Option.some.injEq] at hi
        subst hi
        have h1 : bytesAt w' ws' = some (v, []) := h1
        rw [hgx] at h1
        simp only [Option.some.injEq, Prod.mk.injEq] at h1
        obtain ⟨rfl, rfl⟩ := h1
        exact ⟨rfl, hgy []⟩
      | succ i =>
        exfalso
        have h1 : bytesAt w' ws' = some (v, []) := h1
        rw [List.getElem?_cons_succ] at hi
        by_cases hw : w' ∈ [b!"base32", b!"b32", b!"base64", b!"b64"]
        · cases i with
          | zero => exact hpre 0 w' rfl rfl hw
          | succ i =>
            obtain ⟨f, hf⟩ := bytesAt_pair hw
            rw [hf] at h1
            match ws', h1, hi with
            | z :: [], _, hi => simp at hi
            | z :: a :: ws, h, _ =>
              dsimp only at h
              obtain ⟨b, -, h2⟩ := Option.map_eq_some_iff.1 h
              simp at h2
        · obtain ⟨f, hf⟩ := bytesAt_alone hw
          rw [hf] at h1
          obtain ⟨b, -, h2⟩ := Option.map_eq_some_iff.1 h1
          injection h2 with h2 h3
          subst h3
          cases hi
  have hall : ∀ vs ws', Reader.all bytesAt ver ws = some (vs, ws') →
      Reader.all bytesAt ver (ws.set i y) = none ∨ ∃ vs', Reader.all bytesAt ver (ws.set i y) = some (vs', []) ∧ vs' ≠ vs := by
    intro vs ws' h
    unfold Reader.all at h ⊢
    obtain ⟨as, h1, h2⟩ := Option.map_eq_some_iff.1 h
    injection h2 with h2 h3
    subst h2
    have := many_change hgx hgy hne _ ws i as hi hpre h1
    rw [List.length_set]
    cases hm : Reader.many bytesAt ws.length (ws.set i y) with
    | none => exact .inl rfl
    | some vs' => exact .inr ⟨vs', rfl, by rintro rfl; exact this hm⟩
  rcases hcase with rfl | rfl | rfl | rfl
  · simp only [evalShape, bind_some, ret_some] at hev
    obtain ⟨v, ws', h1, rfl, rfl⟩ := hev
    obtain ⟨rfl, h2⟩ := hone v h1
    simp only [evalShape, Reader.bind, h2]
    cases g with
    | none => exact .inl rfl
    | some a => exact .inr ⟨_, rfl, fun h => by injection h with h; exact hne (by rw [h])⟩
  · simp only [evalShape, bind_some, ret_some] at hev
    obtain ⟨v, ws', h1, rfl, rfl⟩ := hev
    obtain ⟨rfl, h2⟩ := hone v h1
    simp only [evalShape, Reader.bind, h2]
    cases g with
    | none => exact .inl rfl
    | some a => exact .inr ⟨_, rfl, fun h => by injection h with h; exact hne (by rw [h])⟩
  · simp only [evalShape, bind_some, ret_some] at hev
    obtain ⟨v, ws', h1, rfl, rfl⟩ := hev
    simp only [evalShape, Reader.bind]
    rcases hall _ _ h1 with h2 | ⟨vs', h2, h3⟩
    · rw [h2]; exact .inl rfl
    · rw [h2]; exact .inr ⟨_, rfl, fun h => by injection h with h; exact h3 h⟩
  · simp only [evalShape, bind_some, ret_some] at hev
    obtain ⟨v, ws', h1, rfl, rfl⟩ := hev
    simp only [evalShape, Reader.bind]
    rcases hall _ _ h1 with h2 | ⟨vs', h2, h3⟩
    · rw [h2]; exact .inl rfl
    · rw [h2]; exact .inr ⟨_, rfl, fun h => by injection h with h; exact h3 h⟩

end Teal.Lsp

namespace Teal.Props

open Teal Teal.Spec Teal.Lsp Teal.Lsp.Spec

/-- **C77, exactly.**  Let a number of a field stand on a line that was read as an instruction, in a text
whose strings contain no line breaks, and let the fix write the name of the field for it.  Then the
program stays the same if the field may be called by its name there, that is if the opcode is one for
arrays or the version in force has the field.  If not, every other line stays the same and the
instruction is gone. -/
theorem C77_exact (h : Host) (ms : List (Choice × Msg)) (u src : Bytes) (t w : Token) (name : Bytes) (es : List TextEdit) (ver : Nat)
    (ha : Executed h ms u src (.valueReplace u (Lsp.onLine t.l t.b t.e) name) es) (ht : IsFieldNumber (tokens src) t name)
    (hone : ∀ t ∈ tokens src, t.t = .value → ∀ x ∈ t.v, ¬ Break x)
    (env : Env) (r : ProcessResult) (hr : process env src = some r) (hs : NoSurplus r) (hread : r.listing[t.l]? ≠ some .empty)
    (hver : VersionAt (tokens src) t.l ver) (hhead : (words (tokens src) t.l).head? = some w) :
    ∃ src' r', Edited src es src' ∧ process env src' = some r' ∧ r'.version = r.version ∧
      (Nameable ver w.v name → r'.listing = r.listing) ∧
      (¬ Nameable ver w.v name → r'.listing = r.listing.set t.l .empty ∧ r'.listing ≠ r.listing) := by
  obtain ⟨-, rfl⟩ := executed_replace ha
  obtain ⟨w', rest, i, n, hw, hi, hn, hf⟩ := ht
  obtain rfl : w' = w := by rw [hw] at hhead; exact Option.some.inj hhead
  have htw : t ∈ words (tokens src) t.l := by rw [hw]; exact List.mem_cons_of_mem _ (List.mem_of_getElem? hi)
  have hm := mem_words.1 htw
  have hq : t.v.head? ≠ some chQuote := by
    obtain ⟨c, s, h1, h2⟩ := signed_head hn
    rw [h1, List.head?_cons]
    intro he
    obtain ⟨digits, ds, h3, h4, h5⟩ := hn
    have hc : c = chQuote := Option.some.inj he
    subst hc
    rcases h5 with ⟨h5, -⟩ | ⟨h5, -⟩ | ⟨h5, -⟩
    · have h6 := congrArg List.head? h4.1
      rw [← h5, h1] at h6
      simp only [List.map_cons, List.head?_cons, List.head?_map] at h6
      rw [show digitValue chQuote = none from by decide] at h6
      cases hds : ds.head? with
      | none => rw [hds] at h6; cases h6
      | some d => rw [hds] at h6; simp at h6
    · rw [h1] at h5; injection h5 with h5; cases h5
    · rw [h1] at h5; injection h5 with h5; cases h5
  obtain ⟨src', h1, h2, h3⟩ := replace_word hm.1 hm.2.2 hq (Bare.writes (fieldName_plain hf)) hone
  have hother : ∀ k, k ≠ t.l → (words (tokens src') k).map Token.v = (words (tokens src) k).map Token.v := by
    intro k hk
    rw [h3 k]
    refine List.map_congr_left fun s hs => if_neg ?_
    rintro rfl
    exact hk (mem_words.1 hs).2.1.symm
  have hline : (words (tokens src') t.l).map Token.v = w'.v :: (rest.map Token.v).set i name := by
    rw [h3 t.l, map_replace hw hi]
  have hold : (words (tokens src) t.l).map Token.v = w'.v :: rest.map Token.v := by rw [hw]; rfl
  have hx : (rest.map Token.v)[i]? = some t.v := by rw [List.getElem?_map, hi]; rfl
  have hpr : w'.v ≠ b!"#pragma" := by
    obtain ⟨e, a, he, -⟩ := fieldName_iff.1 hf
    obtain ⟨hm, hname⟩ := opsGet_mem he
    rw [← hname]
    exact (opcode_plain e hm).2
  have hsets : ∀ k v, SetsVersion ((words (tokens src') k).map Token.v) v ↔ SetsVersion ((words (tokens src) k).map Token.v) v := by
    intro k v
    by_cases hk : k = t.l
    · subst hk
      rw [hline, hold]
      exact sets_head hpr _ _ _
    · rw [hother k hk]
  obtain ⟨hlen, hverr, huniq, hl⟩ := listing_ops hr hs
  have hk0 : t.l < lineCount (tokens src) := line_lt_count src t hm.1
  have hver' : ∀ v, VersionAt (tokens src') t.l v → v = ver := fun v hv => huniq _ _ (Nat.le_of_lt hk0) (version_sets hsets hv) _ hver
  obtain ⟨o, ho⟩ : ∃ o, r.listing[t.l]? = some o := ⟨_, List.getElem?_eq_getElem (by omega)⟩
  have hne : o ≠ .empty := by rintro rfl; exact hread ho
  have hops := hl t.l ver o ho hver
  rw [hold] at hops
  by_cases hk : Nameable ver w'.v name
  · obtain ⟨r', h4, h5, h6⟩ := program_replaced hr hs h2 hsets (by
      intro k v o' ho' hv ho2
      by_cases hkl : k = t.l
      · subst hkl
        rw [hold] at ho2
        rw [hline]
        have hv := huniq _ _ (Nat.le_of_lt hk0) hv _ hver
        subst hv
        have hne' : o' ≠ .empty := by rintro rfl; exact hread ho'
        exact ops_nameable ho2 hne' hf hx hn hk
      · rw [hother k hkl]; exact ho2)
    exact ⟨src', r', h1, h4, h6, fun _ => h5, fun hn => absurd hk hn⟩
  · obtain ⟨r', h4, h5, -, h6, -⟩ := program_of_lines env src' (r.listing.set t.l .empty) (by rw [h2, List.length_set, hlen]) (by
      intro k v o' ho' hv
      by_cases hkl : k = t.l
      · subst hkl
        rw [List.getElem?_set_self (by omega)] at ho'
        injection ho' with ho'
        subst ho'
        rw [hline, hver' v hv]
        exact ops_unnameable hf hx hk
      · rw [List.getElem?_set_ne (fun h => hkl h.symm)] at ho'
        rw [hother k hkl]
        exact hl k v o' ho' (version_sets hsets hv))
    refine ⟨src', r', h1, h4, ?_, fun h => absurd h hk, fun _ => ⟨h5, fun h => ?_⟩⟩
    · rw [List.length_set] at h6
      exact huniq _ _ (Nat.le_of_eq hlen) (version_sets hsets h6) _ hverr
    · rw [h5] at h
      have := congrArg (·[t.l]?) h
      simp only [List.getElem?_set_self (show t.l < r.listing.length by omega)] at this
      exact hread this.symm

/-- The conditions are met by a field of version 6 in a program of version 1, where the name is not read. -/
example : ¬ Nameable 1 b!"txn" b!"LastLog" ∧ Nameable 6 b!"txn" b!"LastLog" ∧ Nameable 1 b!"txna" b!"Logs" := by
  refine ⟨?_, .inr ⟨?_, ?_, ?_⟩, .inl (by decide)⟩
  · rintro (h | h)
    · revert h; decide
    · have := h.txn (by decide) (by decide +kernel)
      revert this; decide +kernel
  · intro names k hk
    exact absurd (List.mem_map.2 ⟨_, hk, rfl⟩) (show b!"txn" ∉ fieldOps.map (·.1) by decide +kernel)
  · intro h; revert h; decide
  · intro _ _; decide +kernel

example (r : ProcessResult) (hr : process sampleEnv b!"txn 62" = some r) :
    ∃ src' r', Edited b!"txn 62" [⟨Lsp.onLine 0 4 6, b!"LastLog"⟩] src' ∧ process sampleEnv src' = some r' ∧ r'.listing = [.empty] := by
  have hv : r.listing = [.field .txn 62] := by
    have h : (process sampleEnv b!"txn 62").map (·.listing) = some [.field .txn 62] := C77_false.2.2.2.1
    rw [hr] at h
    exact Option.some.inj h
  have hns : NoSurplus r := by
    have h : ∀ r, process sampleEnv b!"txn 62" = some r → NoSurplus r := by
      intro r hr
      unfold NoSurplus
      have : (process sampleEnv b!"txn 62").map (fun r => r.diagnostics.map (·.kind)) = some [] := by decide +kernel
      rw [hr] at this
      have hd : r.diagnostics = [] := by simpa using this
      simp [hd]
    exact h r hr
  obtain ⟨src', r', h1, h2, -, -, h5⟩ := C77_exact sampleHost _ b!"u" b!"txn 62" { v := b!"62", l := 0, b := 4, e := 6, t := .value }
    { v := b!"txn", l := 0, b := 0, e := 3, t := .value } b!"LastLog" _ 1 C77_false.1
    ⟨{ v := b!"txn", l := 0, b := 0, e := 3, t := .value }, [{ v := b!"62", l := 0, b := 4, e := 6, t := .value }], 0, 62, by decide +kernel, rfl,
      ⟨b!"62", [6, 2], by decide, ⟨by decide, by decide⟩, .inl ⟨rfl, by decide⟩⟩, .txn b!"txn" 62 ⟨b!"LastLog", 6, false, none⟩ (by decide) (by decide +kernel)⟩
    (by decide +kernel) sampleEnv r hr hns (by rw [hv]; decide) .first (by decide +kernel)
  have hno : ¬ Nameable 1 b!"txn" b!"LastLog" := by
    rintro (h | h)
    · revert h; decide
    · have := h.txn (by decide) (by decide +kernel)
      revert this; decide +kernel
  exact ⟨src', r', h1, h2, by rw [(h5 hno).1, hv]; rfl⟩

/-- **C78, exactly, for bytes that do not end in a backslash.**  Let a byte constant in hex stand on a line that was
read, in a text whose strings contain no line breaks, and let the fix write it as a string.  The program stays the same
exactly if none of the bytes is a backslash; if one is, exactly this instruction changes. -/
theorem C78_exact (h : Host) (ms : List (Choice × Msg)) (u src : Bytes) (t : Token) (bs : Bytes) (es : List TextEdit)
    (ha : Executed h ms u src (.valueReplace u (Lsp.onLine t.l t.b t.e) (quoted bs)) es) (ht : IsHexText (tokens src) t bs)
    (hc : IsByteConstant (tokens src) t) (hlast : bs.getLast? ≠ some 92)
    (hone : ∀ t ∈ tokens src, t.t = .value → ∀ x ∈ t.v, ¬ Break x)
    (env : Env) (r : ProcessResult) (hr : process env src = some r) (hs : NoSurplus r) (hread : r.listing[t.l]? ≠ some .empty) :
    ∃ src' r', Edited src es src' ∧ process env src' = some r' ∧ r'.version = r.version ∧ (r'.listing = r.listing ↔ 92 ∉ bs) ∧
      ∃ o, r'.listing = r.listing.set t.l o := by
  obtain ⟨-, rfl⟩ := executed_replace ha
  obtain ⟨htw, ⟨s, hv, hx⟩, -⟩ := ht
  obtain ⟨w, rest, i, hw, hi, hop, hprev⟩ := hc
  have hm := mem_words.1 htw
  obtain ⟨src', h1, h2, h3⟩ := replace_word hm.1 hm.2.2 (hex_head hv) (writes_bytes hlast) hone
  have hother : ∀ k, k ≠ t.l → (words (tokens src') k).map Token.v = (words (tokens src) k).map Token.v := by
    intro k hk
    rw [h3 k]
    refine List.map_congr_left fun s hs => if_neg ?_
    rintro rfl
    exact hk (mem_words.1 hs).2.1.symm
  have hline : (words (tokens src') t.l).map Token.v = w.v :: (rest.map Token.v).set i (34 :: (bs ++ [34])) := by
    rw [h3 t.l, map_replace hw hi]
  have hold : (words (tokens src) t.l).map Token.v = w.v :: rest.map Token.v := by rw [hw]; rfl
  have hpr : w.v ≠ b!"#pragma" := by
    intro he
    rw [he] at hop
    revert hop; decide
  have hsets : ∀ k v, SetsVersion ((words (tokens src') k).map Token.v) v ↔ SetsVersion ((words (tokens src) k).map Token.v) v := by
    intro k v
    by_cases hk : k = t.l
    · subst hk
      rw [hline, hold]
      exact sets_head hpr _ _ _
    · rw [hother k hk]
  have hi' : (rest.map Token.v)[i]? = some t.v := by rw [List.getElem?_map, hi]; rfl
  have hprev' : ∀ p, (w.v :: rest.map Token.v)[i]? = some p → p ∉ [b!"base32", b!"b32", b!"base64", b!"b64"] := by
    intro p hp
    rw [← List.map_cons, List.getElem?_map] at hp
    obtain ⟨q, hq, rfl⟩ := Option.map_eq_some_iff.1 hp
    exact hprev q hq
  have hgx : ∀ ws, bytesAt t.v ws = some (bs, ws) := by
    intro ws
    rw [hv, bytesAt_hex, (hexDecode_iff s bs).2 hx]; rfl
  obtain ⟨hlen, hverr, huniq, hl⟩ := listing_ops hr hs
  have hk0 : t.l < lineCount (tokens src) := line_lt_count src t hm.1
  obtain ⟨o, ho⟩ : ∃ o, r.listing[t.l]? = some o := ⟨_, List.getElem?_eq_getElem (by omega)⟩
  have hne : o ≠ .empty := by rintro rfl; exact hread ho
  by_cases hb : 92 ∈ bs
  · obtain ⟨ver, hver⟩ : ∃ ver, VersionAt (tokens src) t.l ver := by
      obtain ⟨qs, hq, -⟩ := process_eq env src
      exact ⟨_, (carry_version env.addrOk src qs hq t.l (Nat.le_of_lt hk0) _).2 rfl⟩
    obtain ⟨g, hgy, hgne⟩ := quoted_alone bs
    have hops := hl t.l ver o ho hver
    rw [hold] at hops
    obtain ⟨o', h4, h5⟩ := ops_changed hops hne hop hi' hgx hgy (hgne hb) hprev'
    obtain ⟨r', h6, h7, -, h8, -⟩ := program_of_lines env src' (r.listing.set t.l o') (by rw [h2, List.length_set, hlen]) (by
      intro k v o2 ho2 hv2
      by_cases hkl : k = t.l
      · subst hkl
        rw [List.getElem?_set_self (by omega)] at ho2
        injection ho2 with ho2
        subst ho2
        rw [hline, huniq _ _ (Nat.le_of_lt hk0) (version_sets hsets hv2) _ hver]
        exact h4
      · rw [List.getElem?_set_ne (fun h => hkl h.symm)] at ho2
        rw [hother k hkl]
        exact hl k v o2 ho2 (version_sets hsets hv2))
    refine ⟨src', r', h1, h6, ?_, ⟨fun h => ?_, fun h => absurd hb h⟩, o', h7⟩
    · rw [List.length_set] at h8
      exact huniq _ _ (Nat.le_of_eq hlen) (version_sets hsets h8) _ hverr
    · rw [h7] at h
      have := congrArg (·[t.l]?) h
      simp only [List.getElem?_set_self (show t.l < r.listing.length by omega), ho, Option.some.injEq] at this
      exact absurd this h5
  · have hslash : ∀ x ∈ bs, x ≠ 92 := by rintro x hx rfl; exact hb hx
    obtain ⟨r', h4, h5, h6⟩ := program_replaced hr hs h2 hsets (by
      intro k ver o' ho' hver hops
      by_cases hk : k = t.l
      · subst hk
        rw [hold] at hops
        rw [hline]
        have hne : o' ≠ .empty := by rintro rfl; exact hread ho'
        refine ops_bytes hops hne hop hi' ?_ ?_ hprev'
        · intro ws
          rw [bytesAt_string bs bs (denotes_self hslash), hgx]
        · rw [hv]; simp
      · rw [hother k hk]; exact hops)
    refine ⟨src', r', h1, h4, h6, ⟨fun _ => hb, fun _ => h5⟩, o, ?_⟩
    rw [h5]
    apply List.ext_getElem?
    intro k
    by_cases hk : t.l = k
    · subst hk; rw [List.getElem?_set_self (by omega), ho]
    · rw [List.getElem?_set_ne hk]

/-- The hypotheses of `C78_exact` are met by the bytes of `C78_false`. -/
example (r : ProcessResult) (hr : process sampleEnv b!"byte 0x5c6e" = some r) :
    ∃ src' r', Edited b!"byte 0x5c6e" [⟨Lsp.onLine 0 5 11, quoted b!"\\n"⟩] src' ∧ process sampleEnv src' = some r' ∧ r'.listing ≠ r.listing := by
  have hv : r.listing = [.byte b!"\\n"] := by
    have h : (process sampleEnv b!"byte 0x5c6e").map (·.listing) = some [.byte b!"\\n"] := by decide +kernel
    rw [hr] at h
    exact Option.some.inj h
  have hns : NoSurplus r := by
    have : (process sampleEnv b!"byte 0x5c6e").map (fun r => r.diagnostics.map (·.kind)) = some [] := by decide +kernel
    rw [hr] at this
    have hd : r.diagnostics = [] := by simpa using this
    unfold NoSurplus
    simp [hd]
  obtain ⟨src', r', h1, h2, -, h4, -⟩ := C78_exact sampleHost (openSession b!"byte 0x5c6e") b!"u" b!"byte 0x5c6e"
    { v := b!"0x5c6e", l := 0, b := 5, e := 11, t := .value } b!"\\n" [⟨Lsp.onLine 0 5 11, quoted b!"\\n"⟩]
    (open_executed _ _ b!"1" _ (by decide +kernel))
    ⟨by decide +kernel, ⟨b!"5c6e", rfl, (hexDecode_iff _ _).1 (by decide +kernel)⟩, by decide⟩
    ⟨{ v := b!"byte", l := 0, b := 0, e := 4, t := .value }, [{ v := b!"0x5c6e", l := 0, b := 5, e := 11, t := .value }], 0,
      by decide +kernel, rfl, by decide, by simp⟩
    (by decide) (by decide +kernel) sampleEnv r hr hns (by rw [hv]; decide)
  exact ⟨src', r', h1, h2, fun h => absurd (h4.1 h) (by decide)⟩

end Teal.Props
