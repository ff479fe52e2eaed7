import Verif.Lemmas.Restore

/-! Every printed instruction: its words, and when they are read as the instruction. -/

namespace Teal
open Spec P Props

theorem writes_escaped {s : Bytes} (h : s.getLast? = some chQuote) :
    Writes (chQuote :: (escapeQuotes s ++ [chQuote])) (chQuote :: (s ++ [chQuote])) := by
  have h1 : Unescaped (escapeQuotes s) s := by
    unfold escapeQuotes
    clear h
    induction s with
    | nil => exact .nil
    | cons c s ih =>
      rw [List.flatMap_cons]
      by_cases hc : c = chQuote
      · subst hc
        exact .esc _ _ ih
      · rw [if_neg hc]
        refine .keep c _ _ ?_ ih
        rintro ⟨-, h2⟩
        cases s with
        | nil => simp at h2
        | cons d s =>
          rw [List.flatMap_cons] at h2
          by_cases hd : d = chQuote
          · rw [if_pos hd] at h2; simp [chBackslash, chQuote] at h2
          · rw [if_neg hd] at h2; simp [hd] at h2
  have h2 : ∀ p, NoQuote p (escapeQuotes s) := by
    unfold escapeQuotes
    clear h h1
    induction s with
    | nil => exact fun p => .nil p
    | cons c s ih =>
      intro p
      rw [List.flatMap_cons]
      by_cases hc : c = chQuote
      · subst hc
        exact .cons _ _ _ (fun h => by cases h) (.cons _ _ _ (fun _ => rfl) (ih _))
      · rw [if_neg hc]
        exact .cons _ _ _ (fun h => absurd h hc) (ih _)
  have h3 : lastByte (escapeQuotes s) ≠ chBackslash := by
    obtain ⟨l, rfl⟩ := List.getLast?_eq_some_iff.1 h
    unfold lastByte escapeQuotes
    rw [List.flatMap_append, List.getLast?_append]
    simp [chBackslash, chQuote]
  exact .quoted _ _ h1 (h2 _) h3

/-! ## Byte constants in base64 -/

theorem b64_self : b64Decode b!"b64" = none := by decide

theorem bytesAt_word64 (ws : List Bytes) : bytesAt b!"b64" ws =
    match ws with
    | [] => none
    | w :: ws => (b64Decode w).map fun a => (a, ws) := by
  unfold bytesAt
  rw [if_neg (by decide), if_neg (by decide), if_neg (by decide), if_neg (by decide), if_pos (by decide)]
  cases ws <;> rfl

theorem bytesStr_chars (v : Bytes) : ∀ x ∈ bytesStr v, ¬ Break x := by
  intro x hx
  rcases List.mem_append.1 hx with h | h
  · have hc : ∀ y ∈ b!"b64 ", ¬ Break y := by decide
    exact hc x h
  · have := (b64_chars v x h).1
    rintro (rfl | rfl) <;> revert this <;> decide

theorem joined_chars (vs : List Bytes) : ∀ x ∈ joinSpace (vs.map bytesStr), ¬ Break x := by
  induction vs with
  | nil => simp [joinSpace]
  | cons v vs ih =>
    cases vs with
    | nil => exact bytesStr_chars v
    | cons u us =>
      intro x hx
      have hx : x ∈ bytesStr v ++ chSpace :: joinSpace ((u :: us).map bytesStr) := hx
      rcases List.mem_append.1 hx with h | h
      · exact bytesStr_chars v x h
      · rcases List.mem_cons.1 h with rfl | h
        · rintro (h | h) <;> revert h <;> decide
        · exact ih x h

/-- Base64 texts that are not words. -/
theorem unprintable {v : Bytes} (h : ¬ PrintableBytes v) : v = [] ∨ ∃ t, b64Encode v = chSlash :: chSlash :: t := by
  by_cases hv : v = []
  · exact .inl hv
  · refine .inr ?_
    unfold PrintableBytes at h
    simp only [not_and, Classical.not_forall] at h
    obtain ⟨b, t, rfl, hb⟩ := h hv
    have hb' : 240 ≤ b.toNat := by
      have := UInt8.not_lt.1 hb
      exact this
    have hlt := b.toNat_lt
    have h1 : b64Char ((255 : UInt8).toNat / 4) = chSlash := by decide
    have h2 : b64Char ((255 : UInt8).toNat % 4 * 16 + b.toNat / 16) = chSlash := by
      rw [show (255 : UInt8).toNat % 4 * 16 + b.toNat / 16 = 63 by
        have : (255 : UInt8).toNat = 255 := rfl
        omega]
      decide
    cases t with
    | nil => rw [b64Encode, h1, h2]; exact ⟨_, rfl⟩
    | cons c t => rw [b64Encode, h1, h2]; exact ⟨_, rfl⟩

/-- What byte constants are printed as. -/
theorem bytes_row (vs : List Bytes) : ∃ ws, Row (joinSpace (vs.map bytesStr)) ws ∧ (vs = [] ∧ ws = [] ∨ ∃ t, ws = b!"b64" :: t) ∧
    ((∀ v ∈ vs, PrintableBytes v) → ws = vs.flatMap fun v => [b!"b64", b64Encode v]) ∧
    (¬ (∀ v ∈ vs, PrintableBytes v) → ∀ n, Reader.many bytesAt n ws = none) := by
  have hbb : Writes b!"b64" b!"b64" := Bare.writes (by decide)
  induction vs with
  | nil => exact ⟨[], .nil, .inl ⟨rfl, rfl⟩, fun _ => rfl, fun h => absurd (by simp) h⟩
  | cons v vs ih =>
    obtain ⟨ws, h1, h2, h3, h4⟩ := ih
    -- the rest of the line
    have htail : ∃ t, joinSpace ((v :: vs).map bytesStr) = b!"b64" ++ chSpace :: (b64Encode v ++ t) ∧ Row t ws ∧
        (t = [] ∨ t.head? = some chSpace) ∧ ∀ x ∈ t, ¬ Break x := by
      cases vs with
      | nil =>
        obtain ⟨-, rfl⟩ | ⟨t, rfl⟩ := h2
        · exact ⟨[], by simp [joinSpace, bytesStr, chSpace], .nil, .inl rfl, by simp⟩
        · exfalso
          have := h3 (by simp)
          simp at this
      | cons u us =>
        refine ⟨chSpace :: joinSpace ((u :: us).map bytesStr), ?_, .blank _ _ h1, .inr rfl, ?_⟩
        · show bytesStr v ++ chSpace :: joinSpace ((u :: us).map bytesStr) = _
          simp [bytesStr, chSpace]
        · intro x hx
          rcases List.mem_cons.1 hx with rfl | hx
          · rintro (h | h) <;> revert h <;> decide
          · exact joined_chars _ x hx
    obtain ⟨t, e, hr, ht, hbr⟩ := htail
    by_cases hv : PrintableBytes v
    · refine ⟨b!"b64" :: b64Encode v :: ws, ?_, .inr ⟨_, rfl⟩, ?_, ?_⟩
      · rw [e]
        exact row_cons hbb (.word _ _ t ws (bare_b64 hv).writes ht hr)
      · intro hall
        rw [h3 fun x hx => hall x (by simp [hx])]
        rfl
      · intro hall n
        have hbad : ¬ ∀ x ∈ vs, PrintableBytes x := fun h => hall (by simpa using ⟨hv, h⟩)
        cases n with
        | zero => rfl
        | succ n =>
          rw [Reader.many, b64_read]
          dsimp only
          rw [h4 hbad n]; rfl
    · have hbad : ¬ ∀ x ∈ v :: vs, PrintableBytes x := fun h => hv (h v (by simp))
      rcases unprintable hv with rfl | ⟨u, hu⟩
      · refine ⟨b!"b64" :: ws, ?_, .inr ⟨_, rfl⟩, fun h => absurd h hbad, fun _ n => ?_⟩
        · rw [e]
          exact row_cons hbb hr
        · cases n with
          | zero => rfl
          | succ n =>
            rw [Reader.many, bytesAt_word64]
            obtain ⟨-, rfl⟩ | ⟨t, rfl⟩ := h2
            · rfl
            · dsimp only
              rw [b64_self]; rfl
      · refine ⟨[b!"b64"], ?_, .inr ⟨_, rfl⟩, fun h => absurd h hbad, fun _ n => ?_⟩
        · rw [e, hu]
          refine row_cons hbb (.remark (u ++ t) ?_)
          intro x hx
          rcases List.mem_append.1 hx with hx | hx
          · have : x ∈ b64Encode v := by rw [hu]; simp [hx]
            have := (b64_chars v x this).1
            rintro (rfl | rfl) <;> revert this <;> decide
          · exact hbr x hx
        · cases n with
          | zero => rfl
          | succ n => rw [Reader.many, bytesAt_word64]

theorem all_none {ver : Nat} {ws : List Bytes} (h : ∀ n, Reader.many bytesAt n ws = none) : Reader.all bytesAt ver ws = none := by
  unfold Reader.all
  rw [h]; rfl

/-- A single byte constant. -/
theorem byte_restores {addrOk : Bytes → Bool} {w v : Bytes} {g : Bytes → Op} {sh : Shape} (hsh : ∀ ver ws, evalShape addrOk sh ver ws = (Reader.bytes.bind fun v => .ret (g v)) ver ws)
    (he : (opsGet w).map (·.shape) = some sh) (hw : Bare w) (hs : (g v).str = w ++ chSpace :: bytesStr v) (hg : ∀ v, g v ≠ .empty ∧ ∀ m, g v ≠ .pragma m) :
    Restores addrOk (g v) fun _ => PrintableBytes v := by
  have hbb : Writes b!"b64" b!"b64" := Bare.writes (by decide)
  have hnone : ∀ ver, opsOf addrOk ver [w, b!"b64"] ≠ [g v] := by
    intro ver h
    rw [ops_iff he (hg v).1, hsh, any_bind] at h
    obtain ⟨a, h, -⟩ := h
    have h : bytesAt b!"b64" [] = some (a, []) := h
    rw [bytesAt_word64] at h
    cases h
  by_cases hv : PrintableBytes v
  · refine ⟨[w, b!"b64", b64Encode v], ?_, fun m hm => absurd hm ((hg v).2 m), fun ver => ⟨fun _ => hv, fun _ => ?_⟩⟩
    · rw [hs]
      refine row_cons hw.writes ?_
      have := row_bare (ws := [b!"b64", b64Encode v]) (by simpa using ⟨by decide, bare_b64 hv⟩)
      simpa [lineText, bytesStr, chSpace] using this
    · rw [ops_iff he (hg v).1, hsh, any_bind]
      exact ⟨v, b64_read v [], rfl⟩
  · refine ⟨[w, b!"b64"], ?_, fun m hm => absurd hm ((hg v).2 m), fun ver => ⟨fun h => absurd h (hnone ver), fun h => absurd h hv⟩⟩
    rw [hs, show bytesStr v = b!"b64" ++ chSpace :: b64Encode v by simp [bytesStr, chSpace]]
    refine row_cons hw.writes (row_cons hbb ?_)
    rcases unprintable hv with rfl | ⟨u, hu⟩
    · exact .nil
    · rw [hu]
      refine .remark u ?_
      intro x hx
      have : x ∈ b64Encode v := by rw [hu]; simp [hx]
      have := (b64_chars v x this).1
      rintro (rfl | rfl) <;> revert this <;> decide

/-- Names that the words of a line keep. -/
theorem any_restores {addrOk : Bytes → Bool} {o : Op} {w : Bytes} {ws : List Bytes} {sh : Shape}
    (he : (opsGet w).map (·.shape) = some sh) (hw : Bare w) (hws : ∀ w ∈ ws, Writes w w) (hs : o.str = lineText (w :: ws))
    (ho : o ≠ .empty ∧ ∀ m, o ≠ .pragma m) (h : ∀ ver, evalShape addrOk sh ver ws = some (o, [])) :
    Restores addrOk o fun _ => True :=
  restores_words he hw hws hs ho fun ver => by simp [h ver]

theorem restores (addrOk : Bytes → Bool) (o : Op) (hv : Valid addrOk o) (hk : ∀ w ∈ keptWords o, Writes w w)
    (hm : ∀ s, o = .method s → s.getLast? = some chQuote)
    (hpr : ∀ v, o = .pragma v → 1 ≤ v ∧ v < 256) : Restores addrOk o fun ver => Restorable ver o := by
  cases o with
  | empty => exact ⟨[], .nil, by simp, fun ver => by simp [opsOf, Restorable]⟩
  | label n =>
    refine ⟨[n ++ [chColon]], row_bare (ws := [n ++ [chColon]]) (by simpa using hv.1), by simp, fun ver => ?_⟩
    rw [opsOf, if_pos (by simp), if_neg (by simpa using hv.2)]
    simp [Restorable]
  | pragma v =>
    obtain ⟨ws, h1, h2, h3⟩ := reread addrOk 1 (.pragma v) hv trivial hpr
    have hb : ∀ w ∈ [b!"#pragma", b!"version", formatUint v], Bare w := by
      intro w hw
      simp only [List.mem_cons, List.not_mem_nil, or_false] at hw
      rcases hw with rfl | rfl | rfl
      · decide
      · decide
      · exact bare_uint v
    have he : ws = [b!"#pragma", b!"version", formatUint v] :=
      lineText_inj h2 hb (h1.symm.trans (by simp [Op.str, lineText, chSpace]))
    refine ⟨ws, h1 ▸ row_bare h2, fun m hm => ?_, fun ver => ⟨fun _ => trivial, fun _ => ?_⟩⟩
    · injection hm with hm
      rw [he, hm]
    · rw [he] at h3 ⊢
      rw [opsOf, if_neg (by decide), if_pos rfl] at h3 ⊢
      exact h3
  | comment t => exact hv.elim
  | plain k => exact any_restores (plain_str k).1 (plain_str k).2 (ws := []) (by simp) rfl (by simp) fun ver => by simp [evalShape, ret_iff]
  | u8 k n =>
    by_cases hr : k = .replace2
    · subst hr
      refine ⟨[b!"repace2", formatUint n], row_bare (ws := [b!"repace2", formatUint n]) (by simpa using ⟨by decide, bare_uint n⟩), by simp, fun ver => ?_⟩
      have hg : opsGet b!"repace2" = none := by decide +kernel
      rw [opsOf, if_neg (by decide), if_neg (by decide), hg]
      simp [Restorable]
    · refine restores_words (u8_str k hr).1 (u8_str k hr).2 (ws := [formatUint n]) (by simpa using (bare_uint n).writes) rfl (by simp) fun ver => ?_
      simp only [evalShape, word_bind, ret_iff]
      exact ⟨fun _ => hr, fun _ => ⟨_, _, _, rfl, C11_uint8_print_read n hv, rfl, rfl⟩⟩
  | u8u8 k m n =>
    refine restores_words (u8u8_str k).1 (u8u8_str k).2 (ws := [formatUint m, formatUint n])
      (by simpa using ⟨(bare_uint m).writes, (bare_uint n).writes⟩) rfl (by simp) fun ver => ⟨fun _ => trivial, fun _ => ?_⟩
    have h1 := C11_uint8_print_read m hv.1
    have h2 := C11_uint8_print_read n hv.2
    by_cases hk : k = .extract
    · rw [if_pos hk]
      subst hk
      simp only [evalShape, opt_bind]
      simp [h1, word_bind, ret_iff, h2]
    · rw [if_neg hk]
      simp only [evalShape, word_bind, ret_iff]
      exact ⟨_, _, _, rfl, h1, _, _, _, rfl, h2, rfl, rfl⟩
  | i8 k i =>
    refine any_restores (i8_str k).1 (i8_str k).2 (ws := [formatInt i]) (by simpa using (bare_int i).writes) rfl (by simp) fun ver => ?_
    simp only [evalShape, word_bind, ret_iff]
    exact ⟨_, _, _, rfl, C11_int8_print_read i hv.1 hv.2, rfl, rfl⟩
  | field k f => exact field_restores hv
  | fieldIdx k f i =>
    have hi := C11_uint8_print_read i hv.2
    have hnm : k ≠ .itxna → (Op.fieldIdx k f i).str = lineText [k.str, FieldGroup.txn.str f, formatUint i] → Restores addrOk (.fieldIdx k f i) fun ver => Restorable ver (.fieldIdx k f i) := by
      intro hk hstr
      refine restores_words (fieldIdx_str k).1 (fieldIdx_str k).2 (by simpa using ⟨(bare_field .txn f).writes, (bare_uint i).writes⟩) hstr (by simp) fun ver => ?_
      simp only [evalShape, word_bind, ret_iff, Restorable]
      constructor
      · rintro ⟨x, xs, a, h1, h2, y, ys, b, h3, h4, h5, -⟩
        simp only [List.cons.injEq, Op.fieldIdx.injEq, true_and] at h1 h5
        rw [← h1.1, h5.1] at h2
        exact .inr (array_restored.1 h2)
      · rintro (h | h)
        · exact absurd h hk
        · exact ⟨_, _, _, rfl, array_restored.2 h, _, _, _, rfl, hi, rfl, rfl⟩
    cases k with
    | txna => exact hnm (by simp) rfl
    | gtxnsa => exact hnm (by simp) rfl
    | itxna =>
      refine restores_words (fieldIdx_str .itxna).1 (fieldIdx_str _).2 (ws := [formatUint f, formatUint i])
        (by simpa using ⟨(bare_uint f).writes, (bare_uint i).writes⟩) rfl (by simp) fun ver => ?_
      simp only [evalShape, word_bind, ret_iff]
      exact ⟨fun _ => .inl rfl, fun _ => ⟨_, _, _, rfl, read_number hv.1, _, _, _, rfl, hi, rfl, rfl⟩⟩
  | groupField k t f =>
    have ht := C11_uint8_print_read t hv.1
    have hf := C11_uint8_print_read f hv.2
    cases k with
    | gtxn =>
      refine restores_words (w := b!"gtxn") (sh := .gtxn) (ws := [formatUint t, FieldGroup.txn.str f]) (by decide +kernel) (by decide)
        (by simpa using ⟨(bare_uint t).writes, (bare_field .txn f).writes⟩) rfl (by simp) fun ver => ?_
      simp only [evalShape, word_bind, opt_bind, ret_iff]
      constructor
      · rintro ⟨x, xs, a, h1, h2, y, ys, b, h3, h4, h5⟩
        simp only [List.cons.injEq] at h1
        rw [← h1.2] at h3
        simp only [List.cons.injEq] at h3
        rcases h5 with h5 | ⟨z, zs, c, h6, -⟩
        · have h5 := h5.2.1
          simp only [Op.groupField.injEq, true_and] at h5
          rw [← h3.1, h5.2] at h4
          exact txn_restored.1 h4
        · rw [h6] at h3
          exact absurd h3.2.symm (by simp)
      · intro h
        exact ⟨_, _, _, rfl, ht, _, _, _, rfl, txn_restored.2 h, .inl ⟨rfl, rfl, trivial⟩⟩
    | gitxn =>
      refine restores_words (w := b!"gitxn") (sh := .groupField .txn .gitxn) (ws := [formatUint t, FieldGroup.txn.str f]) (by decide +kernel) (by decide)
        (by simpa using ⟨(bare_uint t).writes, (bare_field .txn f).writes⟩) rfl (by simp) fun ver => ?_
      simp only [evalShape, word_bind, ret_iff]
      constructor
      · rintro ⟨x, xs, a, h1, h2, y, ys, b, h3, h4, h5, -⟩
        simp only [List.cons.injEq] at h1
        rw [← h1.2] at h3
        simp only [List.cons.injEq, Op.groupField.injEq, true_and] at h3 h5
        rw [← h3.1, h5.2] at h4
        exact txn_restored.1 h4
      · intro h
        exact ⟨_, _, _, rfl, ht, _, _, _, rfl, txn_restored.2 h, rfl, rfl⟩
    | gtxnas =>
      refine restores_words (w := b!"gtxnas") (sh := .groupField .txna .gtxnas) (ws := [formatUint f, formatUint t]) (by decide +kernel) (by decide)
        (by simpa using ⟨(bare_uint f).writes, (bare_uint t).writes⟩) rfl (by simp) fun ver => ?_
      simp only [evalShape, word_bind, ret_iff]
      constructor
      · rintro ⟨x, xs, a, h1, h2, y, ys, b, h3, h4, h5, -⟩
        simp only [List.cons.injEq] at h1
        simp only [Op.groupField.injEq, true_and] at h5
        rw [← h1.1, hf, Option.some.injEq] at h2
        exact h5.1.symm.trans h2.symm
      · intro h
        have h : t = f := h
        subst h
        exact ⟨_, _, _, rfl, ht, _, _, _, rfl, read_number hv.1, rfl, rfl⟩
    | gitxnas =>
      refine restores_words (w := b!"gitxnas") (sh := .groupField .txna .gitxnas) (ws := [formatUint t, FieldGroup.txn.str f]) (by decide +kernel) (by decide)
        (by simpa using ⟨(bare_uint t).writes, (bare_field .txn f).writes⟩) rfl (by simp) fun ver => ?_
      simp only [evalShape, word_bind, ret_iff]
      constructor
      · rintro ⟨x, xs, a, h1, h2, y, ys, b, h3, h4, h5, -⟩
        simp only [List.cons.injEq] at h1
        rw [← h1.2] at h3
        simp only [List.cons.injEq, Op.groupField.injEq, true_and] at h3 h5
        rw [← h3.1, h5.2] at h4
        exact array_restored.1 h4
      · intro h
        exact ⟨_, _, _, rfl, ht, _, _, _, rfl, array_restored.2 h, rfl, rfl⟩
  | groupFieldIdx k t f i =>
    have ht := C11_uint8_print_read t hv.1
    have hi := C11_uint8_print_read i hv.2.2
    cases k with
    | gtxna =>
      refine restores_words (w := b!"gtxna") (sh := .gtxna) (ws := [formatUint t, FieldGroup.txn.str f, formatUint i]) (by decide +kernel) (by decide)
        (by simpa using ⟨(bare_uint t).writes, (bare_field .txn f).writes, (bare_uint i).writes⟩) rfl (by simp) fun ver => ?_
      simp only [evalShape, word_bind, ret_iff]
      constructor
      · rintro ⟨x, xs, a, h1, h2, y, ys, b, h3, h4, z, zs, c, h6, h7, h5, -⟩
        simp only [List.cons.injEq] at h1
        rw [← h1.2] at h3
        simp only [List.cons.injEq, Op.groupFieldIdx.injEq, true_and] at h3 h5
        rw [← h3.1, h5.2.1] at h4
        exact array_restored.1 h4
      · intro h
        exact ⟨_, _, _, rfl, ht, _, _, _, rfl, array_restored.2 h, _, _, _, rfl, hi, rfl, rfl⟩
    | gitxna =>
      have ht := (C11_print_read t (by have := hv.1; omega)).2
      refine restores_words (w := b!"gitxna") (sh := .gitxna) (ws := [formatUint t, FieldGroup.txn.str f, formatUint i]) (by decide +kernel) (by decide)
        (by simpa using ⟨(bare_uint t).writes, (bare_field .txn f).writes, (bare_uint i).writes⟩) rfl (by simp) fun ver => ?_
      simp only [evalShape, word_bind, ret_iff]
      constructor
      · rintro ⟨x, xs, a, h1, h2, y, ys, b, h3, h4, z, zs, c, h6, h7, h5, -⟩
        simp only [List.cons.injEq] at h1
        rw [← h1.2] at h3
        simp only [List.cons.injEq, Op.groupFieldIdx.injEq, true_and] at h3 h5
        rw [← h3.1, h5.2.1] at h4
        exact array_restored.1 h4
      · intro h
        exact ⟨_, _, _, rfl, ht, _, _, _, rfl, array_restored.2 h, _, _, _, rfl, hi, by rw [Nat.mod_eq_of_lt hv.1], rfl⟩
  | int v =>
    refine any_restores (w := b!"int") (sh := .int) (ws := [formatUint v]) (by decide +kernel) (by decide) (by simpa using (bare_uint v).writes) rfl (by simp) fun ver => ?_
    simp only [evalShape, word_bind, ret_iff]
    have h1 : readConstInt (formatUint v) = some v :=
      (readConstInt_iff _ _).2 (.inr ((C11_int_literal _ _).1 (C11_print_read v hv).2))
    exact ⟨_, _, _, rfl, h1, rfl, rfl⟩
  | pushint v =>
    refine any_restores (w := b!"pushint") (sh := .pushint) (ws := [formatUint v]) (by decide +kernel) (by decide) (by simpa using (bare_uint v).writes) rfl (by simp) fun ver => ?_
    simp only [evalShape, word_bind, ret_iff]
    exact ⟨_, _, _, rfl, (C11_print_read v hv).2, rfl, rfl⟩
  | byte v => exact byte_restores (w := b!"byte") (g := .byte) (sh := .byte) (fun _ _ => rfl) (by decide +kernel) (by decide) (by simp [Op.str, chSpace]) (by simp)
  | pushbytes v => exact byte_restores (w := b!"pushbytes") (g := .pushbytes) (sh := .pushbytes) (fun _ _ => rfl) (by decide +kernel) (by decide) (by simp [Op.str, chSpace]) (by simp)
  | addr a =>
    refine any_restores (w := b!"addr") (sh := .addr) (ws := [a]) (by decide +kernel) (by decide) (by simpa [keptWords] using hk) (by simp [Op.str, lineText, chSpace]) (by simp) fun ver => ?_
    simp only [evalShape, word_bind, ret_iff]
    exact ⟨_, _, _, rfl, by rw [if_pos hv.1], rfl, rfl⟩
  | method s =>
    refine ⟨[b!"method", chQuote :: (s ++ [chQuote])], ?_, by simp, fun ver => ⟨fun h => ?_, fun h => h.elim⟩⟩
    · have hb : Writes b!"method" b!"method" := Bare.writes (by decide)
      have := row_cons hb (Row.word _ _ [] [] (writes_escaped (hm s rfl)) (.inl rfl) .nil)
      simpa [Op.str, chSpace, chQuote] using this
    · rw [ops_iff (sh := .method) (by decide +kernel) (by simp)] at h
      simp only [evalShape, word_bind, ret_iff] at h
      obtain ⟨x, xs, a, h1, h2, h3, -⟩ := h
      simp only [List.cons.injEq, Op.method.injEq] at h1 h3
      unfold quotedWord at h2
      split at h2
      · injection h2 with h2
        rw [← h1.1, h3] at h2
        have := congrArg List.length h2
        simp at this
        omega
      · cases h2
  | intcblock vs =>
    refine any_restores (w := b!"intcblock") (sh := .intcblock) (ws := vs.map formatUint) (by decide +kernel) (by decide)
      (by simpa using fun v _ => (bare_uint v).writes) ?_ (by simp) fun ver => ?_
    · cases vs with
      | nil => rfl
      | cons v vs => rw [lineText_cons _ (by simp), lineText_join]; simp [Op.str, chSpace]
    · exact any_read (all_map formatUint ver fun v h => (C11_print_read v (hv v h)).2)
  | pushints vs =>
    refine ⟨b!"pushbytess" :: vs.map formatUint, ?_, by simp, fun ver => ⟨fun h => ?_, fun h => h.elim⟩⟩
    · have hb : Writes b!"pushbytess" b!"pushbytess" := Bare.writes (by decide)
      have := row_cons hb (row_bare (ws := vs.map formatUint) (by simpa using fun v _ => bare_uint v))
      rw [lineText_join] at this
      simpa [Op.str, chSpace] using this
    · rw [ops_iff (sh := .pushbytess) (by decide +kernel) (by simp)] at h
      obtain ⟨a, -, h⟩ := any_bind.1 h
      cases h
  | bytecblock vs =>
    refine any_restores (w := b!"bytecblock") (sh := .bytecblock) (ws := vs.map fun v => b!"0x" ++ hexEncode v) (by decide +kernel) (by decide)
      (by simpa using fun v _ => (bare_hex v).writes) ?_ (by simp) fun ver => ?_
    · cases vs with
      | nil => rfl
      | cons v vs => rw [lineText_cons _ (by simp), lineText_join]; simp [Op.str, chSpace]
    · exact any_read (all_hex ver vs)
  | pushbytess vs =>
    obtain ⟨ws, h1, -, h3, h4⟩ := bytes_row vs
    have hb : Writes b!"pushbytess" b!"pushbytess" := Bare.writes (by decide)
    refine ⟨b!"pushbytess" :: ws, by simpa [Op.str, chSpace] using row_cons hb h1, by simp, fun ver => ?_⟩
    rw [ops_iff (sh := .pushbytess) (by decide +kernel) (by simp)]
    by_cases hall : ∀ v ∈ vs, PrintableBytes v
    · refine ⟨fun _ => hall, fun _ => ?_⟩
      rw [h3 hall]
      exact any_read (all_b64 ver vs)
    · refine ⟨fun h => ?_, fun h => absurd h hall⟩
      obtain ⟨a, h, -⟩ := any_bind.1 h
      rw [all_none (h4 hall)] at h
      cases h
  | branch k l =>
    refine any_restores (branch_str k).1 (branch_str k).2 (ws := [l]) (by simpa [keptWords] using hk) rfl (by simp) fun ver => ?_
    simp only [evalShape, word_bind, ret_iff]
    exact ⟨_, _, _, rfl, rfl, rfl, rfl⟩
  | switch ls =>
    refine any_restores (w := b!"switch") (sh := .switch) (ws := ls) (by decide +kernel) (by decide) hk ?_ (by simp) fun ver => ?_
    · cases ls with
      | nil => rfl
      | cons v vs => rw [lineText_cons _ (by simp), lineText_join]; simp [Op.str, chSpace]
    · exact any_read ((labels_all ver ls ls).2 rfl)
  | match_ ls =>
    refine any_restores (w := b!"match") (sh := .match_) (ws := ls) (by decide +kernel) (by decide) hk ?_ (by simp) fun ver => ?_
    · cases ls with
      | nil => rfl
      | cons v vs => rw [lineText_cons _ (by simp), lineText_join]; simp [Op.str, chSpace]
    · exact any_read ((labels_all ver ls ls).2 rfl)

end Teal
