import Verif.Spec.Frame
import Verif.Lemmas.Strconv

/-! # Lemmas about reading frames -/

namespace Teal.Frame

open Teal Teal.Spec Teal.Frame.Spec

theorem dropWhile_eq_self {p : UInt8 → Bool} {l : Bytes} (h : ∀ c, l.head? = some c → p c = false) :
    l.dropWhile p = l := by
  cases l with
  | nil => rfl
  | cons c cs => rw [List.dropWhile_cons, h c rfl]; rfl

theorem takeWhile_append_stop {p : UInt8 → Bool} {a : Bytes} {c : UInt8} {b : Bytes}
    (ha : ∀ x ∈ a, p x = true) (hc : p c = false) : (a ++ c :: b).takeWhile p = a := by
  induction a with
  | nil => simp [List.takeWhile_cons, hc]
  | cons x a ih =>
    rw [List.cons_append, List.takeWhile_cons, ha x (by simp)]
    simp only [if_true]
    rw [ih fun y hy => ha y (by simp [hy])]

theorem dropWhile_append_stop {p : UInt8 → Bool} {a : Bytes} {c : UInt8} {b : Bytes}
    (ha : ∀ x ∈ a, p x = true) (hc : p c = false) : (a ++ c :: b).dropWhile p = c :: b := by
  induction a with
  | nil => simp [List.dropWhile_cons, hc]
  | cons x a ih =>
    rw [List.cons_append, List.dropWhile_cons, ha x (by simp)]
    simp only [if_true]
    exact ih fun y hy => ha y (by simp [hy])

theorem readLine_crlf {l rest : Bytes} (h : chLF ∉ l) : readLine (l ++ chCR :: chLF :: rest) = some (l, rest) := by
  have ha : ∀ x ∈ l ++ [chCR], decide (x ≠ chLF) = true := by
    intro x hx
    rcases List.mem_append.1 hx with hx | hx
    · simp; rintro rfl; exact h hx
    · simp at hx; subst hx; decide
  have e : l ++ chCR :: chLF :: rest = (l ++ [chCR]) ++ chLF :: rest := by simp
  unfold readLine
  rw [if_neg (by simp), e, takeWhile_append_stop ha (by decide), dropWhile_append_stop ha (by decide)]
  simp

/-- What is left of a value after trimming. -/
def trimmed (v : Bytes) : Bytes := ((v.reverse.dropWhile isBlank).reverse).dropWhile isBlank

theorem trimRight_append {a : Bytes} {c : UInt8} {b : Bytes} (hc : isBlank c = false) :
    (((a ++ c :: b).reverse.dropWhile isBlank).reverse) = a ++ c :: (b.reverse.dropWhile isBlank).reverse := by
  have : (a ++ c :: b).reverse = b.reverse ++ (c :: a.reverse) := by simp
  rw [this, List.dropWhile_append]
  split
  · rename_i h
    have h2 : b.reverse.dropWhile isBlank = [] := by simpa using h
    rw [List.dropWhile_cons, hc, h2]
    simp
  · simp

theorem fieldByte_facts : ∀ c : UInt8, ((48 ≤ c ∧ c ≤ 57) ∨ (65 ≤ c ∧ c ≤ 90) ∨ (97 ≤ c ∧ c ≤ 122) ∨ c = 45) →
    isTokenByte c = true ∧ isBlank c = false ∧ c ≠ chColon ∧ c ≠ chLF := by
  intro c; revert c; apply forall_byte; decide +kernel

theorem valueByte_facts : ∀ c : UInt8, 32 ≤ c ∧ c ≠ 127 → isValueByte c = true ∧ c ≠ chLF := by
  intro c; revert c; apply forall_byte; decide +kernel

theorem canonKey_name {k : Bytes} (h : FieldName k) : canonKey k = some (canonLoop true k) := by
  unfold canonKey
  rw [if_neg h.1, if_pos]
  rw [List.all_eq_true]
  exact fun c hc => (fieldByte_facts c (h.2 c hc)).1

/-- The blank behind the colon goes with those in front of the value. -/
theorem trimmed_blank (v : Bytes) : (((chSpace :: v).reverse.dropWhile isBlank).reverse).dropWhile isBlank = trimmed v := by
  unfold trimmed
  rw [List.reverse_cons, List.dropWhile_append]
  split
  · rename_i h
    have h2 : v.reverse.dropWhile isBlank = [] := by simpa using h
    rw [h2]; rfl
  · rw [List.reverse_append]
    show (chSpace :: _).dropWhile isBlank = _
    rw [List.dropWhile_cons]; rfl

theorem headerLoop_field {fuel : Nat} {kvs : List (Bytes × Bytes)} {k v next : Bytes} (hk : FieldName k)
    (hv : FieldValue v) (hn : ∀ c, next.head? = some c → isBlank c = false) :
    headerLoop (fuel + 1) kvs (fieldBytes (k, v) ++ next) =
      headerLoop fuel (kvs ++ [(canonLoop true k, trimmed v)]) next := by
  obtain ⟨c, k', rfl⟩ := List.exists_cons_of_ne_nil hk.1
  have hc := fieldByte_facts c (hk.2 c (by simp))
  have hlf : chLF ∉ (c :: k') ++ chColon :: chSpace :: v := by
    intro hm
    rcases List.mem_append.1 hm with hm | hm
    · exact (fieldByte_facts _ (hk.2 _ hm)).2.2.2 rfl
    · rcases List.mem_cons.1 hm with hm | hm
      · revert hm; decide
      · rcases List.mem_cons.1 hm with hm | hm
        · revert hm; decide
        · exact (valueByte_facts _ (hv _ hm)).2 rfl
  have e : fieldBytes (c :: k', v) ++ next = ((c :: k') ++ chColon :: chSpace :: v) ++ chCR :: chLF :: next := by
    simp [fieldBytes]
  rw [e, headerLoop, readLine_crlf hlf]
  have hcol : ((c :: k') ++ chColon :: chSpace :: v).contains chColon = true := by simp
  have htrim : trimBlank ((c :: k') ++ chColon :: chSpace :: v) =
      (c :: k') ++ chColon :: ((chSpace :: v).reverse.dropWhile isBlank).reverse := by
    unfold trimBlank
    rw [dropWhile_eq_self (l := (c :: k') ++ chColon :: chSpace :: v)
      (by intro x hx; simp at hx; subst hx; exact hc.2.1)]
    exact trimRight_append (by decide)
  have hcont : ∀ line, continued next.length line next = (line, next) := by
    intro line
    cases next with
    | nil => rfl
    | cons x xs =>
      rw [List.length_cons, continued, if_pos]
      rw [List.takeWhile_cons, hn x rfl]; rfl
  have hk' : ∀ x ∈ (c :: k'), decide (x ≠ chColon) = true := by
    intro x hx
    simpa using (fieldByte_facts x (hk.2 x hx)).2.2.1
  simp only [hcol, htrim, hcont]
  rw [if_neg (by simp), if_neg (by simp), takeWhile_append_stop hk' (by decide),
    dropWhile_append_stop hk' (by decide)]
  simp only [List.drop_succ_cons, List.drop_zero, canonKey_name hk, trimmed_blank]
  rw [if_pos]
  rw [List.all_eq_true]
  intro x hx
  have hx : x ∈ chSpace :: v := by
    have h1 : x ∈ (chSpace :: v).reverse.dropWhile isBlank := by simpa using hx
    exact List.mem_reverse.1 (List.dropWhile_sublist _ |>.subset h1)
  rcases List.mem_cons.1 hx with rfl | hx
  · decide
  · exact (valueByte_facts _ (hv _ hx)).1

theorem fields_head {fields : List (Bytes × Bytes)} (hk : ∀ f ∈ fields, FieldName f.1) (rest : Bytes) :
    ∀ c, (fields.flatMap fieldBytes ++ chCR :: chLF :: rest).head? = some c → isBlank c = false := by
  intro c hc
  cases fields with
  | nil => simp at hc; subst hc; decide
  | cons f fs =>
    obtain ⟨k, v⟩ := f
    have hk := hk (k, v) (by simp)
    obtain ⟨x, k', rfl⟩ := List.exists_cons_of_ne_nil hk.1
    simp [fieldBytes] at hc
    subst hc
    exact (fieldByte_facts _ (hk.2 _ (by simp))).2.1

theorem headerLoop_fields {fields : List (Bytes × Bytes)} {rest : Bytes} (hk : ∀ f ∈ fields, FieldName f.1)
    (hv : ∀ f ∈ fields, FieldValue f.2) : ∀ (fuel : Nat) (kvs : List (Bytes × Bytes)), fields.length < fuel →
    headerLoop fuel kvs (fields.flatMap fieldBytes ++ chCR :: chLF :: rest) =
      .ok (kvs ++ fields.map fun f => (canonLoop true f.1, trimmed f.2)) rest := by
  induction fields with
  | nil =>
    intro fuel kvs hf
    cases fuel with
    | zero => simp at hf
    | succ fuel =>
      unfold headerLoop
      have := readLine_crlf (l := []) (rest := rest) (by simp)
      simp only [List.flatMap_nil, List.nil_append] at this ⊢
      rw [this]
      simp
  | cons f fs ih =>
    intro fuel kvs hf
    cases fuel with
    | zero => simp at hf
    | succ fuel =>
      obtain ⟨k, v⟩ := f
      rw [List.flatMap_cons, List.append_assoc, headerLoop_field (hk (k, v) (by simp)) (hv (k, v) (by simp))
        (fields_head (fun f hf => hk f (by simp [hf])) rest)]
      rw [ih (fun f hf => hk f (by simp [hf])) (fun f hf => hv f (by simp [hf])) _ _ (by simpa using hf)]
      simp

theorem readHeader_fields {fields : List (Bytes × Bytes)} {rest : Bytes} (hk : ∀ f ∈ fields, FieldName f.1)
    (hv : ∀ f ∈ fields, FieldValue f.2) :
    readHeader (fields.flatMap fieldBytes ++ chCR :: chLF :: rest) =
      .ok (fields.map fun f => (canonLoop true f.1, trimmed f.2)) rest := by
  have hlen : fields.length ≤ (fields.flatMap fieldBytes).length := by
    clear hk hv
    induction fields with
    | nil => simp
    | cons f fs ih => simp [fieldBytes] at ih ⊢; omega
  have hl := headerLoop_fields (rest := rest) hk hv ((fields.flatMap fieldBytes ++ chCR :: chLF :: rest).length + 1) []
    (by simp at hlen ⊢; omega)
  have hh := fields_head hk rest
  unfold readHeader
  split
  · rename_i h; simp at h
  · rename_i c cs h
    rw [h] at hl hh
    rw [if_neg (by rw [hh c rfl]; decide), h, hl]
    simp

theorem canon_lower : ∀ (k : Bytes) (u : Bool), (canonLoop u k).map lowerCase = k.map lowerCase := by
  have hb : ∀ c : UInt8, lowerCase (if 97 ≤ c && c ≤ 122 then c - 32 else c) = lowerCase c ∧
      lowerCase (if 65 ≤ c && c ≤ 90 then c + 32 else c) = lowerCase c := by
    intro c; revert c; apply forall_byte; decide +kernel
  intro k
  induction k with
  | nil => intro u; rfl
  | cons c cs ih =>
    intro u
    simp only [canonLoop, List.map_cons, ih]
    congr 1
    cases u
    · simpa using (hb c).2
    · simpa using (hb c).1

/-- Keys that differ in case only have the same canonical form. -/
theorem canon_congr : ∀ (a b : Bytes) (u : Bool), a.map lowerCase = b.map lowerCase → canonLoop u a = canonLoop u b := by
  have hb : ∀ c : UInt8, (if 97 ≤ c && c ≤ 122 then c - 32 else c) = (if 97 ≤ lowerCase c && lowerCase c ≤ 122 then lowerCase c - 32 else lowerCase c) ∧
      (if 65 ≤ c && c ≤ 90 then c + 32 else c) = lowerCase c := by
    intro c; revert c; apply forall_byte; decide +kernel
  intro a
  induction a with
  | nil => intro b u h; cases b with
    | nil => rfl
    | cons => simp at h
  | cons x xs ih =>
    intro b u h
    cases b with
    | nil => simp at h
    | cons y ys =>
      simp only [List.map_cons, List.cons.injEq] at h
      have hc : ∀ u : Bool, (if u && 97 ≤ x && x ≤ 122 then x - 32 else if !u && 65 ≤ x && x ≤ 90 then x + 32 else x) =
          (if u && 97 ≤ y && y ≤ 122 then y - 32 else if !u && 65 ≤ y && y ≤ 90 then y + 32 else y) := by
        intro u
        cases u
        · have h1 := (hb x).2
          have h2 := (hb y).2
          simp only [Bool.false_and, Bool.false_eq_true, if_false, Bool.not_false, Bool.true_and]
          rw [h1, h2, h.1]
        · have h1 := (hb x).1
          have h2 := (hb y).1
          simp only [Bool.true_and, Bool.not_true, Bool.false_and, Bool.false_eq_true, if_false]
          rw [h1, h2, h.1]
      simp only [canonLoop, hc u]
      congr 1
      exact ih ys _ h.2

theorem canon_length {k : Bytes} : canonLoop true k = b!"Content-Length" ↔ IsLength k := by
  constructor
  · intro h
    have := canon_lower k true
    rw [h] at this
    unfold IsLength
    rw [← this]; decide
  · intro h
    rw [canon_congr k b!"content-length" true (by rw [h]; decide)]
    decide

theorem decimal_facts {n : Nat} {s : Bytes} (h : DecimalOf n s) : s ≠ [] ∧ (∀ c ∈ s, isBlank c = false ∧ c ≠ 43 ∧ c ≠ 45) := by
  obtain ⟨ds, ⟨h1, h2⟩, _, h3, _⟩ := h
  refine ⟨h3, ?_⟩
  intro c hc
  have hb : ∀ c : UInt8, (digitValue c).isSome = true → isBlank c = false ∧ c ≠ 43 ∧ c ≠ 45 := by
    intro c; revert c; apply forall_byte; decide +kernel
  apply hb
  have : digitValue c ∈ s.map digitValue := List.mem_map_of_mem hc
  rw [h1] at this
  obtain ⟨d, _, hd⟩ := List.mem_map.1 this
  rw [← hd]; rfl

theorem trimmed_decimal {n : Nat} {s : Bytes} (h : DecimalOf n s) : trimmed s = s := by
  have hf := (decimal_facts h).2
  unfold trimmed
  rw [dropWhile_eq_self (l := s.reverse), List.reverse_reverse, dropWhile_eq_self]
  · intro c hc; exact (hf c (List.mem_of_mem_head? (by rw [hc]; rfl))).1
  · intro c hc
    have : c ∈ s.reverse := List.mem_of_mem_head? (by rw [hc]; rfl)
    exact (hf c (List.mem_reverse.1 this)).1

theorem decimal_unique {n : Nat} {s : Bytes} (h : DecimalOf n s) (hn : n < 2 ^ 63) : parseIntBase 10 64 s = some (n : Int) := by
  have hf := decimal_facts h
  cases s with
  | nil => exact absurd rfl hf.1
  | cons c t =>
    have hc := hf.2 c (by simp)
    obtain ⟨ds, h1, h2, h3, _⟩ := h
    have hp : parseUintBase 10 64 (c :: t) = some n := by
      rw [parseUintBase_iff 10 64 (by decide) (by decide) (Nat.le_refl _)]
      exact ⟨h3, ds, h1, h2.symm, by omega⟩
    unfold parseIntBase
    simp only [hc.2.1, hc.2.2, or_self, if_false, hp]
    simp
    omega

theorem readFrame_valid {fields : List (Bytes × Bytes)} {body rest : Bytes} (hv : Valid fields body)
    (hl : body.length < 2 ^ 63) : readFrame (frameBytes fields body ++ rest) = .body body rest := by
  have e : frameBytes fields body ++ rest = fields.flatMap fieldBytes ++ chCR :: chLF :: (body ++ rest) := by
    simp [frameBytes]
  unfold readFrame
  rw [e, readHeader_fields hv.names hv.values]
  have hget : ∃ v, DecimalOf body.length v ∧
      headerGet (fields.map fun f => (canonLoop true f.1, trimmed f.2)) b!"Content-Length" = v := by
    obtain ⟨k, v, hmem, hk⟩ := hv.length
    unfold headerGet
    cases hfind : (fields.map fun f => (canonLoop true f.1, trimmed f.2)).find? fun kv => kv.1 == b!"Content-Length" with
    | none =>
      rw [List.find?_eq_none] at hfind
      have := hfind (canonLoop true k, trimmed v) (List.mem_map_of_mem (f := fun f : Bytes × Bytes => (canonLoop true f.1, trimmed f.2)) hmem)
      simp only [beq_iff_eq] at this
      exact absurd (canon_length.2 hk) this
    | some kv =>
      have h1 := List.find?_some hfind
      have h2 := List.mem_of_find?_eq_some hfind
      obtain ⟨f, hf, rfl⟩ := List.mem_map.1 h2
      simp only [beq_iff_eq] at h1
      have := hv.lengths f hf (canon_length.1 h1)
      exact ⟨f.2, this, trimmed_decimal this⟩
  obtain ⟨v, hd, hg⟩ := hget
  simp only [hg, decimal_unique hd hl]
  rw [if_neg (by omega), if_neg (by simp; omega)]
  simp

theorem bodiesLoop_frames {frames : List (List (Bytes × Bytes) × Bytes)}
    (hv : ∀ f ∈ frames, Valid f.1 f.2 ∧ f.2.length < 2 ^ 63) : ∀ (fuel : Nat) (s : Bytes), frames.length < fuel →
    bodiesLoop fuel (frames.flatMap (fun f => frameBytes f.1 f.2) ++ s) =
      (frames.map (·.2) ++ (bodiesLoop (fuel - frames.length) s).1, (bodiesLoop (fuel - frames.length) s).2) := by
  induction frames with
  | nil => intro fuel s _; simp
  | cons f fs ih =>
    intro fuel s hf
    cases fuel with
    | zero => simp at hf
    | succ fuel =>
      rw [List.flatMap_cons, List.append_assoc, bodiesLoop, readFrame_valid (hv f (by simp)).1 (hv f (by simp)).2]
      simp only
      rw [ih (fun g hg => hv g (by simp [hg])) fuel s (by simpa using hf)]
      simp

/-- A header without a line feed is not complete. -/
theorem headerLoop_noLf {p : Bytes} (h : chLF ∉ p) (fuel : Nat) (kvs : List (Bytes × Bytes)) :
    headerLoop fuel kvs p = .eof ∨ headerLoop fuel kvs p = .bad [] := by
  cases fuel with
  | zero => exact .inl rfl
  | succ fuel =>
    rw [headerLoop]
    by_cases hp : p = []
    · subst hp; exact .inl rfl
    · have hl : readLine p = some (p, []) := by
        have ha : ∀ x ∈ p, decide (x ≠ chLF) = true := by
          intro x hx; simp; rintro rfl; exact h hx
        unfold readLine
        have hd : p.dropWhile (fun x => decide (x ≠ chLF)) = [] := by
          clear hp h
          induction p with
          | nil => rfl
          | cons y ys ih =>
            rw [List.dropWhile_cons, if_pos (ha y (by simp))]
            exact ih fun x hx => ha x (by simp [hx])
        have ht := List.takeWhile_append_dropWhile (p := fun x => decide (x ≠ chLF)) (l := p)
        rw [hd, List.append_nil] at ht
        rw [if_neg hp, ht, hd]
      simp only [hl, hp, if_false, List.length_nil, continued]
      split
      · exact .inr rfl
      · split
        · exact .inr rfl
        · split
          · left
            cases fuel <;> rfl
          · exact .inr rfl

/-- The part of a field before its last byte has no line feed. -/
theorem field_noLf {k v a b : Bytes} (hk : FieldName k) (hv : FieldValue v) (hab : a ++ b = fieldBytes (k, v))
    (hb : b ≠ []) : chLF ∉ a := by
  have e : fieldBytes (k, v) = (k ++ chColon :: chSpace :: v ++ [chCR]) ++ [chLF] := by simp [fieldBytes]
  have : ∃ b', b = b' ++ [chLF] := by
    have h1 : (a ++ b).getLast? = some chLF := by rw [hab, e]; exact List.getLast?_concat
    rw [List.getLast?_append, List.getLast?_eq_some_getLast hb] at h1
    refine ⟨b.dropLast, ?_⟩
    have h2 : b.getLast hb = chLF := by simpa using h1
    rw [← h2, List.dropLast_concat_getLast]
  obtain ⟨b', rfl⟩ := this
  rw [e, ← List.append_assoc] at hab
  have hab := (List.append_inj' hab rfl).1
  intro hm
  have : chLF ∈ k ++ chColon :: chSpace :: v ++ [chCR] := by rw [← hab]; simp [hm]
  simp only [List.append_assoc, List.cons_append, List.mem_append, List.mem_cons, List.not_mem_nil, or_false] at this
  rcases this with h | h | h | h | h
  · exact (fieldByte_facts _ (hk.2 _ h)).2.2.2 rfl
  · revert h; decide
  · revert h; decide
  · exact (valueByte_facts _ (hv _ h)).2 rfl
  · revert h; decide

theorem headerLoop_cut {fields : List (Bytes × Bytes)} (hk : ∀ f ∈ fields, FieldName f.1)
    (hv : ∀ f ∈ fields, FieldValue f.2) : ∀ (fuel : Nat) (kvs : List (Bytes × Bytes)) (a b : Bytes), b ≠ [] →
    a ++ b = fields.flatMap fieldBytes ++ [chCR, chLF] →
    headerLoop fuel kvs a = .eof ∨ headerLoop fuel kvs a = .bad [] := by
  induction fields with
  | nil =>
    intro fuel kvs a b hb hab
    apply headerLoop_noLf
    intro hm
    simp only [List.flatMap_nil, List.nil_append] at hab
    match a, hab with
    | [], _ => cases hm
    | [x], hab => simp at hab hm; rw [← hm] at hab; exact absurd hab.1 (by decide)
    | x :: y :: l, hab => simp at hab; exact hb hab.2.2.2
  | cons f fs ih =>
    intro fuel kvs a b hb hab
    obtain ⟨k, v⟩ := f
    have hk0 := hk (k, v) (by simp)
    have hv0 := hv (k, v) (by simp)
    rw [List.flatMap_cons, List.append_assoc] at hab
    rcases List.append_eq_append_iff.1 hab with ⟨c, h1, h2⟩ | ⟨c, h1, h2⟩
    · by_cases hc : c = []
      · subst hc
        simp only [List.append_nil] at h1
        cases fuel with
        | zero => exact .inl rfl
        | succ fuel =>
          have := headerLoop_field (fuel := fuel) (kvs := kvs) (next := []) hk0 hv0 (by simp)
          rw [List.append_nil, h1] at this
          rw [this]
          exact headerLoop_noLf (by simp) _ _
      · exact headerLoop_noLf (field_noLf hk0 hv0 h1.symm hc) _ _
    · subst h1
      cases fuel with
      | zero => exact .inl rfl
      | succ fuel =>
        rw [headerLoop_field hk0 hv0]
        · exact ih (fun f hf => hk f (by simp [hf])) (fun f hf => hv f (by simp [hf])) fuel _ c b hb h2.symm
        · intro x hx
          have hh := fields_head (fields := fs) (fun f hf => hk f (by simp [hf])) []
          refine hh x ?_
          have h2 : fs.flatMap fieldBytes ++ chCR :: chLF :: [] = c ++ b := h2
          rw [h2, List.head?_append, hx]; rfl

/-- Nothing is read from a frame that is cut. -/
theorem readFrame_cut {fields : List (Bytes × Bytes)} {body a b : Bytes} (hv : Valid fields body)
    (hl : body.length < 2 ^ 63) (hb : b ≠ []) (hab : a ++ b = frameBytes fields body) :
    readFrame a = .eof ∨ readFrame a = .error [] := by
  have e : frameBytes fields body = (fields.flatMap fieldBytes ++ [chCR, chLF]) ++ body := by simp [frameBytes]
  rw [e] at hab
  have hcut : ∀ c, c ≠ [] → a ++ c = fields.flatMap fieldBytes ++ [chCR, chLF] → readFrame a = .eof ∨ readFrame a = .error [] := by
    intro c hc h1
    unfold readFrame readHeader
    split <;> rename_i hh
    · exact .inl rfl
    · rename_i rest
      split at hh
      · cases hh
      · rename_i x xs
        split at hh
        · rename_i hx
          have := fields_head hv.names [] x (by
            show (fields.flatMap fieldBytes ++ [chCR, chLF]).head? = some x
            rw [← h1]; rfl)
          rw [hx] at this; cases this
        · rcases headerLoop_cut hv.names hv.values ((x :: xs).length + 1) [] _ c hc h1 with h | h
          · rw [h] at hh; cases hh
          · rw [h] at hh; cases hh; exact .inr rfl
    · split at hh
      · cases hh
      · rename_i x xs
        split at hh
        · split at hh <;> cases hh
        · rcases headerLoop_cut hv.names hv.values ((x :: xs).length + 1) [] _ c hc h1 with h | h <;>
            rw [h] at hh <;> cases hh
  rcases List.append_eq_append_iff.1 hab with ⟨c, h1, h2⟩ | ⟨c, h1, h2⟩
  · by_cases hc : c = []
    · subst hc
      simp only [List.append_nil] at h1
      simp only [List.nil_append] at h2
      left
      have hr := readFrame_valid (rest := []) hv hl
      rw [List.append_nil, e] at hr
      have hh := readHeader_fields (rest := body) hv.names hv.values
      have hh' := readHeader_fields (rest := []) hv.names hv.values
      have e1 : fields.flatMap fieldBytes ++ chCR :: chLF :: body = (fields.flatMap fieldBytes ++ [chCR, chLF]) ++ body := by simp
      rw [e1] at hh
      rw [← h1]
      unfold readFrame at hr ⊢
      rw [hh] at hr
      rw [hh']
      simp only at hr ⊢
      revert hr
      cases parseIntBase 10 64 (headerGet (fields.map fun f => (canonLoop true f.1, trimmed f.2)) b!"Content-Length") with
      | none => intro h; cases h
      | some n =>
        simp only
        intro hr
        split at hr
        · cases hr
        · split at hr
          · cases hr
          · rename_i hn hlen
            rw [if_neg hn, if_pos]
            injection hr with h3 h4
            have h5 : body.drop n.toNat = [] := h4
            have h6 : body ≠ [] := by rw [← h2]; exact hb
            have h7 := List.drop_eq_nil_iff.1 h5
            have : 0 < body.length := List.length_pos_iff.2 h6
            simp only [List.length_nil]
            omega
    · exact hcut c hc h1.symm
  · subst h1
    left
    have hr := readFrame_valid (rest := []) hv hl
    rw [List.append_nil, e] at hr
    have hh := readHeader_fields (rest := body) hv.names hv.values
    have hh' := readHeader_fields (rest := c) hv.names hv.values
    have e1 : fields.flatMap fieldBytes ++ chCR :: chLF :: body = (fields.flatMap fieldBytes ++ [chCR, chLF]) ++ body := by simp
    have e2 : fields.flatMap fieldBytes ++ chCR :: chLF :: c = (fields.flatMap fieldBytes ++ [chCR, chLF]) ++ c := by simp
    rw [e1] at hh
    rw [e2] at hh'
    unfold readFrame at hr ⊢
    rw [hh] at hr
    rw [hh']
    simp only at hr ⊢
    revert hr
    cases parseIntBase 10 64 (headerGet (fields.map fun f => (canonLoop true f.1, trimmed f.2)) b!"Content-Length") with
    | none => intro h; cases h
    | some n =>
      simp only
      intro hr
      split at hr
      · cases hr
      · split at hr
        · cases hr
        · rename_i hn hlen
          rw [if_neg hn, if_pos]
          injection hr with h3 h4
          have h5 : body.drop n.toNat = [] := h4
          have h7 := List.drop_eq_nil_iff.1 h5
          have h8 : body.length = c.length + b.length := by rw [h2]; simp
          have : 0 < b.length := List.length_pos_iff.2 hb
          have : (body.length : Int) ≤ n.toNat := by omega
          omega

theorem frameBytes_length {fields : List (Bytes × Bytes)} {body : Bytes} : 0 < (frameBytes fields body).length := by
  simp [frameBytes]; omega

end Teal.Frame
