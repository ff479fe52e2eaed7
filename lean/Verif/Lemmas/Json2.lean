import Verif.Lemmas.Json

/-!
# JSON texts: numbers and values
-/

namespace Teal.JsonSpec

open Teal

theorem isDigit_iff (c : UInt8) : Json.isDigit c = true ↔ 48 ≤ c.toNat ∧ c.toNat ≤ 57 := by
  simp only [Json.isDigit, Bool.and_eq_true, decide_eq_true_eq, UInt8.le_iff_toNat_le]; rfl

/-- No digit follows. -/
def NoDigit (rest : Bytes) : Prop := ∀ c t, rest = c :: t → Json.isDigit c = false

theorem takeWhile_digits {ds rest : Bytes} (h : ∀ c ∈ ds, 48 ≤ c.toNat ∧ c.toNat ≤ 57) (hr : NoDigit rest) :
    (ds ++ rest).takeWhile Json.isDigit = ds ∧ (ds ++ rest).dropWhile Json.isDigit = rest := by
  induction ds with
  | nil =>
    cases rest with
    | nil => exact ⟨rfl, rfl⟩
    | cons c t => simp [List.takeWhile_cons, List.dropWhile_cons, hr c t rfl]
  | cons d ds ih =>
    have hd := (isDigit_iff d).2 (h d (by simp))
    obtain ⟨h1, h2⟩ := ih (fun c hc => h c (by simp [hc]))
    simp [List.takeWhile_cons, List.dropWhile_cons, hd, h1, h2]

theorem digits_complete {ds rest : Bytes} (h : JsonDigits ds) (hr : NoDigit rest) : Json.digits (ds ++ rest) = some (ds, rest) := by
  obtain ⟨h1, h2⟩ := takeWhile_digits h.2 hr
  unfold Json.digits
  rw [h1, h2, if_neg h.1]

theorem takeWhile_all (p : UInt8 → Bool) (s : Bytes) : ∀ c ∈ s.takeWhile p, p c = true := by
  induction s with
  | nil => intro c h; cases h
  | cons a s ih =>
    intro c h
    rw [List.takeWhile_cons] at h
    split at h
    · rcases List.mem_cons.1 h with rfl | h
      · assumption
      · exact ih c h
    · cases h

theorem digits_sound {s ds rest : Bytes} (h : Json.digits s = some (ds, rest)) : s = ds ++ rest ∧ JsonDigits ds := by
  unfold Json.digits at h
  split at h
  · cases h
  · rename_i hne
    cases h
    refine ⟨List.takeWhile_append_dropWhile.symm, hne, fun c hc => (isDigit_iff c).1 (takeWhile_all _ s c hc)⟩

theorem JsonDigits.cons {ds : Bytes} (h : JsonDigits ds) : ∃ c t, ds = c :: t ∧ 48 ≤ c.toNat ∧ c.toNat ≤ 57 := by
  cases ds with
  | nil => exact (h.1 rfl).elim
  | cons c t => exact ⟨c, t, rfl, h.2 c (by simp)⟩

/-- What can follow a number: nothing that would go on with it. -/
def NumberEnds (rest : Bytes) : Prop := ∀ c t, rest = c :: t → Json.isDigit c = false ∧ c ≠ 46 ∧ c ≠ 101 ∧ c ≠ 69

theorem exponentPart_complete {exp rest : Bytes}
    (h : exp = [] ∨ ∃ e g ds, JsonDigits ds ∧ (e = b!"e" ∨ e = b!"E") ∧ (g = [] ∨ g = b!"+" ∨ g = b!"-") ∧ exp = e ++ g ++ ds)
    (hr : NumberEnds rest) : Json.exponentPart (exp ++ rest) = some (exp, rest) := by
  have hnd : NoDigit rest := fun c t e => (hr c t e).1
  rcases h with rfl | ⟨e, g, ds, hd, he, hg, rfl⟩
  · cases rest with
    | nil => rfl
    | cons c t =>
      have := hr c t rfl
      simp [Json.exponentPart, this.2.2.1, this.2.2.2]
  · have key : Json.exponentDigits (g ++ ds ++ rest) = some (g ++ ds, rest) := by
      rcases hg with rfl | rfl | rfl
      · obtain ⟨c, t, e1, h1, h2⟩ := hd.cons
        have h3 : ¬ (c = 43 ∨ c = 45) := by
          rintro (rfl | rfl)
          · revert h1; decide
          · revert h1; decide
        have := digits_complete hd hnd
        rw [e1] at this ⊢
        simp only [List.nil_append, List.cons_append] at this ⊢
        simp only [Json.exponentDigits, h3, if_false, this]
      · simp [Json.exponentDigits, digits_complete hd hnd]
      · simp [Json.exponentDigits, digits_complete hd hnd]
    rcases he with rfl | rfl
    · simp only [List.cons_append, List.nil_append, Json.exponentPart, List.append_assoc] at key ⊢
      simp [key]
    · simp only [List.cons_append, List.nil_append, Json.exponentPart, List.append_assoc] at key ⊢
      simp [key]

theorem exponentPart_head {exp rest : Bytes}
    (h : exp = [] ∨ ∃ e g ds, JsonDigits ds ∧ (e = b!"e" ∨ e = b!"E") ∧ (g = [] ∨ g = b!"+" ∨ g = b!"-") ∧ exp = e ++ g ++ ds)
    (hr : NumberEnds rest) : ∀ c t, exp ++ rest = c :: t → Json.isDigit c = false ∧ c ≠ 46 := by
  intro c t e0
  rcases h with rfl | ⟨e, g, ds, hd, he, hg, rfl⟩
  · exact ⟨(hr c t e0).1, (hr c t e0).2.1⟩
  · rcases he with rfl | rfl
    · cases e0; exact ⟨by decide, by decide⟩
    · cases e0; exact ⟨by decide, by decide⟩

theorem fractionPart_complete {frac rest : Bytes} (h : frac = [] ∨ ∃ ds, JsonDigits ds ∧ frac = 46 :: ds)
    (hr : ∀ c t, rest = c :: t → Json.isDigit c = false ∧ c ≠ 46) : Json.fractionPart (frac ++ rest) = some (frac, rest) := by
  have hnd : NoDigit rest := fun c t e => (hr c t e).1
  rcases h with rfl | ⟨ds, hd, rfl⟩
  · simp only [List.nil_append]
    unfold Json.fractionPart
    split
    · rename_i s; exact ((hr 46 s rfl).2 rfl).elim
    · rfl
  · simp [Json.fractionPart, digits_complete hd hnd]

theorem unsigned_complete {whole frac exp rest : Bytes} (hw : whole = b!"0" ∨ JsonDigits whole ∧ whole.head? ≠ some 48)
    (hf : frac = [] ∨ ∃ ds, JsonDigits ds ∧ frac = 46 :: ds)
    (he : exp = [] ∨ ∃ e g ds, JsonDigits ds ∧ (e = b!"e" ∨ e = b!"E") ∧ (g = [] ∨ g = b!"+" ∨ g = b!"-") ∧ exp = e ++ g ++ ds)
    (hr : NumberEnds rest) : Json.unsigned (whole ++ frac ++ exp ++ rest) = some (whole ++ frac ++ exp, rest) := by
  have h1 := exponentPart_complete he hr
  have h2 := fractionPart_complete hf (exponentPart_head he hr)
  have h3 : NoDigit (frac ++ (exp ++ rest)) := by
    intro c t e
    rcases hf with rfl | ⟨ds, hd, rfl⟩
    · exact (exponentPart_head he hr c t e).1
    · cases e; decide
  have h4 : Json.wholePart (whole ++ (frac ++ (exp ++ rest))) = some (whole, frac ++ (exp ++ rest)) := by
    rcases hw with rfl | ⟨hd, hz⟩
    · rfl
    · have := digits_complete hd h3
      obtain ⟨c, t, rfl, -, -⟩ := hd.cons
      simp only [List.head?_cons, ne_eq, Option.some.injEq] at hz
      unfold Json.wholePart
      split
      · rename_i e; cases e; exact (hz rfl).elim
      · exact this
  unfold Json.unsigned
  simp only [List.append_assoc, h4, h2, h1, Option.map_some]

theorem number_complete {s rest : Bytes} (h : JsonNumber s) (hr : NumberEnds rest) : Json.number (s ++ rest) = some (s, rest) := by
  obtain ⟨sign, whole, frac, exp, rfl, hs, hw, hf, he⟩ := h
  have hu := unsigned_complete hw hf he hr
  rcases hs with rfl | rfl
  · rw [List.nil_append] 
    unfold Json.number
    split
    · rename_i s e
      rcases hw with rfl | ⟨hd, -⟩
      · cases e
      · obtain ⟨c, t, rfl, h1, -⟩ := hd.cons
        cases e; exact absurd h1 (by decide)
    · exact hu
  · simp only [List.append_assoc] at hu
    simp [Json.number, hu]

theorem number_sound {s lit rest : Bytes} (h : Json.number s = some (lit, rest)) : s = lit ++ rest ∧ JsonNumber lit := by
  have uns : ∀ {s lit rest : Bytes}, Json.unsigned s = some (lit, rest) → s = lit ++ rest ∧ ∃ whole frac exp : Bytes, lit = whole ++ frac ++ exp ∧
      (whole = b!"0" ∨ JsonDigits whole ∧ whole.head? ≠ some 48) ∧
      (frac = [] ∨ ∃ ds, JsonDigits ds ∧ frac = 46 :: ds) ∧
      (exp = [] ∨ ∃ e g ds, JsonDigits ds ∧ (e = b!"e" ∨ e = b!"E") ∧ (g = [] ∨ g = b!"+" ∨ g = b!"-") ∧ exp = e ++ g ++ ds) := by
    intro s lit rest h
    unfold Json.unsigned at h
    split at h
    · cases h
    · rename_i a s1 hw
      split at h
      · cases h
      · rename_i b s2 hf
        obtain ⟨⟨x, s3⟩, he, e⟩ := Option.map_eq_some_iff.1 h
        cases e
        have w : s = a ++ s1 ∧ (a = b!"0" ∨ JsonDigits a ∧ a.head? ≠ some 48) := by
          unfold Json.wholePart at hw
          split at hw
          · cases hw; exact ⟨rfl, .inl rfl⟩
          · rename_i hz
            obtain ⟨h1, h2⟩ := digits_sound hw
            refine ⟨h1, .inr ⟨h2, ?_⟩⟩
            obtain ⟨c, t, rfl, -, -⟩ := h2.cons
            simp only [List.head?_cons, ne_eq, Option.some.injEq]
            rintro rfl
            exact hz (t ++ s1) (by rw [h1]; rfl)
        have f : s1 = b ++ s2 ∧ (b = [] ∨ ∃ ds, JsonDigits ds ∧ b = 46 :: ds) := by
          unfold Json.fractionPart at hf
          split at hf
          · obtain ⟨⟨ds, r⟩, h1, h2⟩ := Option.map_eq_some_iff.1 hf
            cases h2
            obtain ⟨h1, h2⟩ := digits_sound h1
            exact ⟨by rw [h1]; rfl, .inr ⟨ds, h2, rfl⟩⟩
          · cases hf; exact ⟨rfl, .inl rfl⟩
        have ed : ∀ {s ds rest : Bytes}, Json.exponentDigits s = some (ds, rest) → s = ds ++ rest ∧ ∃ g d, JsonDigits d ∧ (g = [] ∨ g = b!"+" ∨ g = b!"-") ∧
            ds = g ++ d := by
          intro s ds rest h
          cases s with
          | nil => cases h
          | cons c t =>
            simp only [Json.exponentDigits] at h
            split at h
            · rename_i hc
              obtain ⟨⟨d, r⟩, h1, h2⟩ := Option.map_eq_some_iff.1 h
              cases h2
              obtain ⟨h1, h2⟩ := digits_sound h1
              refine ⟨by rw [h1]; rfl, [c], d, h2, ?_, rfl⟩
              rcases hc with rfl | rfl
              · exact .inr (.inl rfl)
              · exact .inr (.inr rfl)
            · obtain ⟨h1, h2⟩ := digits_sound h
              exact ⟨h1, [], ds, h2, .inl rfl, rfl⟩
        have ex : s2 = x ++ s3 ∧ (x = [] ∨ ∃ e g ds, JsonDigits ds ∧ (e = b!"e" ∨ e = b!"E") ∧ (g = [] ∨ g = b!"+" ∨ g = b!"-") ∧ x = e ++ g ++ ds) := by
          cases s2 with
          | nil => cases he; exact ⟨rfl, .inl rfl⟩
          | cons c t =>
            simp only [Json.exponentPart] at he
            split at he
            · rename_i hc
              obtain ⟨⟨d, r⟩, h1, h2⟩ := Option.map_eq_some_iff.1 he
              cases h2
              obtain ⟨h1, g, dd, h2, h3, h4⟩ := ed h1
              refine ⟨by rw [h1]; rfl, .inr ⟨[c], g, dd, h2, ?_, h3, by simp [h4]⟩⟩
              rcases hc with rfl | rfl
              · exact .inl rfl
              · exact .inr rfl
            · cases he; exact ⟨rfl, .inl rfl⟩
        exact ⟨by rw [w.1, f.1, ex.1]; simp, a, b, x, rfl, w.2, f.2, ex.2⟩
  unfold Json.number at h
  split at h
  · obtain ⟨⟨d, r⟩, h1, h2⟩ := Option.map_eq_some_iff.1 h
    cases h2
    obtain ⟨h1, w, f, e, h2, h3, h4, h5⟩ := uns h1
    exact ⟨by rw [h1]; rfl, [45], w, f, e, by simp [h2], .inr rfl, h3, h4, h5⟩
  · obtain ⟨h1, w, f, e, h2, h3, h4, h5⟩ := uns h
    exact ⟨h1, [], w, f, e, by simp [h2], .inl rfl, h3, h4, h5⟩

theorem isSpace_iff (c : UInt8) : Json.isSpace c = true ↔ c = 32 ∨ c = 9 ∨ c = 10 ∨ c = 13 := by
  simp only [Json.isSpace, Bool.or_eq_true, decide_eq_true_eq]
  constructor
  · rintro (((h | h) | h) | h) <;> simp [h]
  · rintro (h | h | h | h) <;> simp [h]

theorem skip_ws {a s : Bytes} (h : Ws a) : Json.skip (a ++ s) = Json.skip s := by
  induction a with
  | nil => rfl
  | cons c a ih =>
    have hc := (isSpace_iff c).2 (h c (by simp))
    unfold Json.skip at ih ⊢
    rw [List.cons_append, List.dropWhile_cons, if_pos hc]
    exact ih (fun x hx => h x (by simp [hx]))

theorem skip_cons {c : UInt8} (t : Bytes) (h : Json.isSpace c = false) : Json.skip (c :: t) = c :: t := by
  unfold Json.skip
  rw [List.dropWhile_cons, if_neg (by simp [h])]

theorem skip_sound (s : Bytes) : ∃ a, Ws a ∧ s = a ++ Json.skip s := by
  refine ⟨s.takeWhile Json.isSpace, fun c hc => (isSpace_iff c).1 (takeWhile_all _ s c hc), ?_⟩
  exact List.takeWhile_append_dropWhile.symm

/-- What can follow a value in a text. -/
def Stop (rest : Bytes) : Prop := ∀ c t, rest = c :: t → c = 32 ∨ c = 9 ∨ c = 10 ∨ c = 13 ∨ c = 44 ∨ c = 93 ∨ c = 125

theorem Stop.number {rest : Bytes} (h : Stop rest) : NumberEnds rest := by
  intro c t e
  rcases h c t e with rfl | rfl | rfl | rfl | rfl | rfl | rfl <;> decide

theorem stop_ws {b rest : Bytes} (h : Ws b) (hr : Stop rest) : Stop (b ++ rest) := by
  intro c t e
  cases b with
  | nil => exact hr c t e
  | cons d b =>
    cases e
    rcases h c (by simp) with rfl | rfl | rfl | rfl <;> simp

theorem stop_cons {c : UInt8} (t : Bytes) (h : c = 44 ∨ c = 93 ∨ c = 125) : Stop (c :: t) := by
  intro d u e
  cases e
  rcases h with rfl | rfl | rfl <;> simp

/-- How a number starts. -/
theorem JsonNumber.cons {s : Bytes} (h : JsonNumber s) : ∃ c t, s = c :: t ∧ (c = 45 ∨ 48 ≤ c.toNat ∧ c.toNat ≤ 57) := by
  obtain ⟨sign, whole, frac, exp, rfl, hs, hw, -, -⟩ := h
  rcases hs with rfl | rfl
  · rcases hw with rfl | ⟨hd, -⟩
    · exact ⟨48, _, rfl, .inr ⟨by decide, by decide⟩⟩
    · obtain ⟨c, t, rfl, h1, h2⟩ := hd.cons
      exact ⟨c, _, rfl, .inr ⟨h1, h2⟩⟩
  · exact ⟨45, _, rfl, .inl rfl⟩

/-- How the parts of a text start. -/
def Starts : Bytes → Phrase → Prop
  | s, .value _ => ∃ c t, s = c :: t ∧ Json.isSpace c = false ∧ c ≠ 93
  | s, .elements _ => ∃ a c t, Ws a ∧ s = a ++ c :: t ∧ Json.isSpace c = false ∧ c ≠ 93
  | s, .members _ => ∃ a t, Ws a ∧ s = a ++ 34 :: t

theorem spelled_starts {l : Prop} {n : Nat} {s : Bytes} {p : Phrase} (h : Spelled l n s p) : Starts s p := by
  cases h with
  | null => exact ⟨_, _, rfl, by decide, by decide⟩
  | true => exact ⟨_, _, rfl, by decide, by decide⟩
  | false => exact ⟨_, _, rfl, by decide, by decide⟩
  | num h =>
    obtain ⟨c, t, e, hc⟩ := h.cons
    refine ⟨c, t, e, ?_, ?_⟩
    · rcases hc with rfl | hc
      · decide
      · rw [Bool.eq_false_iff]
        intro hx
        rcases (isSpace_iff c).1 hx with rfl | rfl | rfl | rfl <;> revert hc <;> decide
    · rintro rfl; revert hc; decide
  | str h => exact ⟨_, _, rfl, by decide, by decide⟩
  | emptyArr h => exact ⟨_, _, rfl, by decide, by decide⟩
  | arr h => exact ⟨_, _, rfl, by decide, by decide⟩
  | emptyObj h => exact ⟨_, _, rfl, by decide, by decide⟩
  | obj h => exact ⟨_, _, rfl, by decide, by decide⟩
  | @element n a s b v ha h hb =>
    have : Starts s (.value v) := by
      revert h; generalize hp : Phrase.value v = p; intro h
      cases h <;> cases hp
      all_goals first | exact ⟨_, _, rfl, by decide, by decide⟩ | skip
      rename_i hn
      obtain ⟨c, t, e, hc⟩ := hn.cons
      refine ⟨c, t, e, ?_, ?_⟩
      · rcases hc with rfl | hc
        · decide
        · rw [Bool.eq_false_iff]
          intro hx
          rcases (isSpace_iff c).1 hx with rfl | rfl | rfl | rfl <;> revert hc <;> decide
      · rintro rfl; revert hc; decide
    obtain ⟨c, t, rfl, h1, h2⟩ := this
    exact ⟨a, c, t ++ b, ha, by simp, h1, h2⟩
  | @elements n a s b t0 v vs ha h hb _ =>
    have : Starts s (.value v) := by
      revert h; generalize hp : Phrase.value v = p; intro h
      cases h <;> cases hp
      all_goals first | exact ⟨_, _, rfl, by decide, by decide⟩ | skip
      rename_i hn
      obtain ⟨c, t, e, hc⟩ := hn.cons
      refine ⟨c, t, e, ?_, ?_⟩
      · rcases hc with rfl | hc
        · decide
        · rw [Bool.eq_false_iff]
          intro hx
          rcases (isSpace_iff c).1 hx with rfl | rfl | rfl | rfl <;> revert hc <;> decide
      · rintro rfl; revert hc; decide
    obtain ⟨c, t, rfl, h1, h2⟩ := this
    exact ⟨a, c, t ++ b ++ 44 :: t0, ha, by simp, h1, h2⟩
  | member ha => refine ⟨_, ?_, ha, ?_⟩; rotate_left; simp only [List.append_assoc, List.cons_append, List.nil_append]; rfl
  | members ha => refine ⟨_, ?_, ha, ?_⟩; rotate_left; simp only [List.append_assoc, List.cons_append, List.nil_append]; rfl

/-- What the parser does with the parts of a text. -/
def Reads (n : Nat) : Bytes → Phrase → Prop
  | s, .value j => ∀ (fuel depth : Nat) (a rest : Bytes), Ws a → n ≤ depth → Stop rest → 2 * s.length ≤ fuel →
      Json.value fuel depth (a ++ s ++ rest) = some (j, rest)
  | s, .elements vs => ∀ (fuel depth : Nat) (rest : Bytes), n ≤ depth → 2 * s.length + 1 ≤ fuel →
      Json.elements fuel depth (s ++ 93 :: rest) = some (vs, rest)
  | s, .members ms => ∀ (fuel depth : Nat) (rest : Bytes), n ≤ depth → 2 * s.length + 1 ≤ fuel →
      Json.members fuel depth (s ++ 125 :: rest) = some (ms, rest)

theorem skip_start {a : Bytes} (ha : Ws a) {c : UInt8} (t : Bytes) (h : Json.isSpace c = false) : Json.skip (a ++ c :: t) = c :: t := by
  rw [skip_ws ha, skip_cons t h]

theorem spelled_reads {n : Nat} {s : Bytes} {p : Phrase} (h : Spelled False n s p) : Reads n s p := by
  induction h with
  | null =>
    intro fuel depth a rest ha _ _ hf
    obtain ⟨fuel, rfl⟩ : ∃ k, fuel = k + 1 := ⟨fuel - 1, by simp only [List.length_cons] at hf; omega⟩
    rw [List.append_assoc]
    simp only [Json.value, List.cons_append, List.nil_append, skip_start ha _ (show Json.isSpace 110 = false by decide)]
    rfl
  | true =>
    intro fuel depth a rest ha _ _ hf
    obtain ⟨fuel, rfl⟩ : ∃ k, fuel = k + 1 := ⟨fuel - 1, by simp only [List.length_cons] at hf; omega⟩
    rw [List.append_assoc]
    simp only [Json.value, List.cons_append, List.nil_append, skip_start ha _ (show Json.isSpace 116 = false by decide)]
    rfl
  | false =>
    intro fuel depth a rest ha _ _ hf
    obtain ⟨fuel, rfl⟩ : ∃ k, fuel = k + 1 := ⟨fuel - 1, by simp only [List.length_cons] at hf; omega⟩
    rw [List.append_assoc]
    simp only [Json.value, List.cons_append, List.nil_append, skip_start ha _ (show Json.isSpace 102 = false by decide)]
    rfl
  | @num n s hn =>
    intro fuel depth a rest ha _ hst hf
    obtain ⟨c, t, rfl, hc⟩ := hn.cons
    obtain ⟨fuel, rfl⟩ : ∃ k, fuel = k + 1 := ⟨fuel - 1, by simp only [List.length_cons] at hf; omega⟩
    have hnum := number_complete hn hst.number
    have hsp : Json.isSpace c = false := by
      rcases hc with rfl | hc
      · decide
      · rw [Bool.eq_false_iff]
        intro hx
        rcases (isSpace_iff c).1 hx with rfl | rfl | rfl | rfl <;> revert hc <;> decide
    have c1 : ¬ c = 123 := by rintro rfl; revert hc; decide
    have c2 : ¬ c = 91 := by rintro rfl; revert hc; decide
    have c3 : ¬ c = 34 := by rintro rfl; revert hc; decide
    have c4 : ¬ c = 116 := by rintro rfl; revert hc; decide
    have c5 : ¬ c = 102 := by rintro rfl; revert hc; decide
    have c6 : ¬ c = 110 := by rintro rfl; revert hc; decide
    rw [List.append_assoc]
    rw [List.cons_append] at hnum ⊢
    simp only [Json.value, skip_start ha _ hsp, c1, c2, c3, c4, c5, c6, if_false, hnum, Option.map_some]
  | @str n s v hs =>
    intro fuel depth a rest ha _ _ hf
    obtain ⟨fuel, rfl⟩ : ∃ k, fuel = k + 1 := ⟨fuel - 1, by simp only [List.length_append, List.length_cons] at hf; omega⟩
    have hu := unquote_complete hs ((s ++ 34 :: rest).length + 1) rest (by simp only [List.length_append]; omega)
    rw [List.append_assoc]
    simp only [List.cons_append, List.nil_append, List.append_assoc]
    simp only [Json.value, skip_start ha _ (show Json.isSpace 34 = false by decide), hu]
    rfl
  | @emptyArr n w hw =>
    intro fuel depth a rest ha hd _ hf
    obtain ⟨fuel, rfl⟩ : ∃ k, fuel = k + 1 := ⟨fuel - 1, by simp only [List.length_append, List.length_cons] at hf; omega⟩
    obtain ⟨depth, rfl⟩ : ∃ k, depth = k + 1 := ⟨depth - 1, by omega⟩
    rw [List.append_assoc]
    simp only [List.cons_append, List.nil_append, List.append_assoc]
    simp only [Json.value, skip_start ha _ (show Json.isSpace 91 = false by decide), skip_start hw _ (show Json.isSpace 93 = false by decide)]
    rfl
  | @arr n s vs hs ih =>
    intro fuel depth a rest ha hd _ hf
    simp only [List.length_append, List.length_cons, List.length_nil] at hf
    obtain ⟨fuel, rfl⟩ : ∃ k, fuel = k + 1 := ⟨fuel - 1, by omega⟩
    obtain ⟨depth, rfl⟩ : ∃ k, depth = k + 1 := ⟨depth - 1, by omega⟩
    have hr := ih fuel depth rest (by omega) (by omega)
    obtain ⟨a', c, t, ha', rfl, h1, h2⟩ := spelled_starts hs
    rw [List.append_assoc]
    simp only [List.cons_append, List.nil_append, List.append_assoc] at hr ⊢
    simp only [Json.value, skip_start ha _ (show Json.isSpace 91 = false by decide), skip_start ha' _ h1, hr]
    simp only [show ¬ ((91 : UInt8) = 123) by decide, if_false, if_true]
    split
    · rename_i e; exact (h2 (List.cons.inj e).1).elim
    · rfl
  | @emptyObj n w hw =>
    intro fuel depth a rest ha hd _ hf
    obtain ⟨fuel, rfl⟩ : ∃ k, fuel = k + 1 := ⟨fuel - 1, by simp only [List.length_append, List.length_cons] at hf; omega⟩
    obtain ⟨depth, rfl⟩ : ∃ k, depth = k + 1 := ⟨depth - 1, by omega⟩
    rw [List.append_assoc]
    simp only [List.cons_append, List.nil_append, List.append_assoc]
    simp only [Json.value, skip_start ha _ (show Json.isSpace 123 = false by decide), skip_start hw _ (show Json.isSpace 125 = false by decide)]
    rfl
  | @obj n s ms hs ih =>
    intro fuel depth a rest ha hd _ hf
    simp only [List.length_append, List.length_cons, List.length_nil] at hf
    obtain ⟨fuel, rfl⟩ : ∃ k, fuel = k + 1 := ⟨fuel - 1, by omega⟩
    obtain ⟨depth, rfl⟩ : ∃ k, depth = k + 1 := ⟨depth - 1, by omega⟩
    have hr := ih fuel depth rest (by omega) (by omega)
    obtain ⟨a', t, ha', rfl⟩ := spelled_starts hs
    rw [List.append_assoc]
    simp only [List.cons_append, List.nil_append, List.append_assoc] at hr ⊢
    simp only [Json.value, skip_start ha _ (show Json.isSpace 123 = false by decide), skip_start ha' _ (show Json.isSpace 34 = false by decide), hr]
    rfl
  | @element n a s b v ha hs hb ih =>
    intro fuel depth rest hd hf
    simp only [List.length_append] at hf
    obtain ⟨fuel, rfl⟩ : ∃ k, fuel = k + 1 := ⟨fuel - 1, by omega⟩
    have hr := ih fuel depth a (b ++ 93 :: rest) ha hd (stop_ws hb (stop_cons _ (by simp))) (by omega)
    simp only [List.append_assoc] at hr ⊢
    simp only [Json.elements, hr, skip_start hb _ (show Json.isSpace 93 = false by decide)]
  | @elements n a s b t v vs ha hs hb ht ih iht =>
    intro fuel depth rest hd hf
    simp only [List.length_append, List.length_cons, List.length_nil] at hf
    obtain ⟨fuel, rfl⟩ : ∃ k, fuel = k + 1 := ⟨fuel - 1, by omega⟩
    have hr := ih fuel depth a (b ++ 44 :: (t ++ 93 :: rest)) ha hd (stop_ws hb (stop_cons _ (by simp))) (by omega)
    have hrt := iht fuel depth rest hd (by omega)
    simp only [List.append_assoc, List.cons_append, List.nil_append] at hr ⊢
    simp only [Json.elements, hr, skip_start hb _ (show Json.isSpace 44 = false by decide), hrt, Option.map_some]
  | @member n a k b c s d key v ha hk hb hc hs hd ih =>
    intro fuel depth rest hdep hf
    simp only [List.length_append, List.length_cons, List.length_nil] at hf
    obtain ⟨fuel, rfl⟩ : ∃ k, fuel = k + 1 := ⟨fuel - 1, by omega⟩
    have hr := ih fuel depth c (d ++ 125 :: rest) hc hdep (stop_ws hd (stop_cons _ (by simp))) (by omega)
    have hu := unquote_complete hk ((k ++ 34 :: (b ++ 58 :: (c ++ (s ++ (d ++ 125 :: rest))))).length + 1)
      (b ++ 58 :: (c ++ (s ++ (d ++ 125 :: rest)))) (by simp only [List.length_append]; omega)
    simp only [List.append_assoc, List.cons_append, List.nil_append] at hr ⊢
    simp only [Json.members, skip_start ha _ (show Json.isSpace 34 = false by decide), hu,
      skip_start hb _ (show Json.isSpace 58 = false by decide), hr, skip_start hd _ (show Json.isSpace 125 = false by decide)]
  | @members n a k b c s d t key v ms ha hk hb hc hs hd ht ih iht =>
    intro fuel depth rest hdep hf
    simp only [List.length_append, List.length_cons, List.length_nil] at hf
    obtain ⟨fuel, rfl⟩ : ∃ k, fuel = k + 1 := ⟨fuel - 1, by omega⟩
    have hr := ih fuel depth c (d ++ 44 :: (t ++ 125 :: rest)) hc hdep (stop_ws hd (stop_cons _ (by simp))) (by omega)
    have hrt := iht fuel depth rest hdep (by omega)
    have hu := unquote_complete hk ((k ++ 34 :: (b ++ 58 :: (c ++ (s ++ (d ++ 44 :: (t ++ 125 :: rest)))))).length + 1)
      (b ++ 58 :: (c ++ (s ++ (d ++ 44 :: (t ++ 125 :: rest))))) (by simp only [List.length_append]; omega)
    simp only [List.append_assoc, List.cons_append, List.nil_append] at hr ⊢
    simp only [Json.members, skip_start ha _ (show Json.isSpace 34 = false by decide), hu,
      skip_start hb _ (show Json.isSpace 58 = false by decide), hr, skip_start hd _ (show Json.isSpace 44 = false by decide), hrt,
      Option.map_some]

theorem word_sound {w s rest : Bytes} {v j : Json} (h : Json.word w v s = some (j, rest)) : j = v ∧ s = w ++ rest := by
  unfold Json.word at h
  split at h
  · rename_i hp
    cases h
    obtain ⟨t, ht⟩ := List.isPrefixOf_iff_prefix.1 hp
    exact ⟨rfl, by rw [← ht]; simp⟩
  · cases h

/-- What is read is spelled, perhaps loosely. -/
theorem reads_spelled : ∀ (fuel : Nat),
    (∀ depth s j rest, Json.value fuel depth s = some (j, rest) → ∃ a t, Ws a ∧ s = a ++ t ++ rest ∧ Spelled True depth t (.value j)) ∧
    (∀ depth s vs rest, Json.elements fuel depth s = some (vs, rest) → ∃ t, s = t ++ 93 :: rest ∧ Spelled True depth t (.elements vs)) ∧
    (∀ depth s ms rest, Json.members fuel depth s = some (ms, rest) → ∃ t, s = t ++ 125 :: rest ∧ Spelled True depth t (.members ms)) := by
  intro fuel
  induction fuel with
  | zero => exact ⟨fun _ _ _ _ h => (by cases h), fun _ _ _ _ h => (by cases h), fun _ _ _ _ h => (by cases h)⟩
  | succ fuel ih =>
    obtain ⟨ihv, ihe, ihm⟩ := ih
    refine ⟨fun depth s j rest h => ?_, fun depth s vs rest h => ?_, fun depth s ms rest h => ?_⟩
    · obtain ⟨a, ha, hs⟩ := skip_sound s
      simp only [Json.value] at h
      split at h
      · cases h
      · rename_i c t hsk
        rw [hsk] at hs
        split at h
        · rename_i hc
          split at h
          · cases h
          · rename_i depth
            split at h
            · rename_i u hu
              cases h
              obtain ⟨b, hb, ht⟩ := skip_sound t
              rw [hu] at ht
              exact ⟨a, _, ha, by rw [hs, hc, ht]; simp, .emptyObj hb⟩
            · obtain ⟨⟨ms, r⟩, h1, h2⟩ := Option.map_eq_some_iff.1 h
              cases h2
              obtain ⟨x, hx, hsp⟩ := ihm _ _ _ _ h1
              exact ⟨a, _, ha, by rw [hs, hc, hx]; simp, .obj hsp⟩
        split at h
        · rename_i hc
          split at h
          · cases h
          · rename_i depth
            split at h
            · rename_i u hu
              cases h
              obtain ⟨b, hb, ht⟩ := skip_sound t
              rw [hu] at ht
              exact ⟨a, _, ha, by rw [hs, hc, ht]; simp, .emptyArr hb⟩
            · obtain ⟨⟨ms, r⟩, h1, h2⟩ := Option.map_eq_some_iff.1 h
              cases h2
              obtain ⟨x, hx, hsp⟩ := ihe _ _ _ _ h1
              exact ⟨a, _, ha, by rw [hs, hc, hx]; simp, .arr hsp⟩
        split at h
        · rename_i hc
          obtain ⟨⟨v, r⟩, h1, h2⟩ := Option.map_eq_some_iff.1 h
          cases h2
          obtain ⟨b, hb, hcs⟩ := unquote_sound _ _ _ _ h1
          exact ⟨a, _, ha, by rw [hs, hc, hb]; simp, .str hcs⟩
        split at h
        · obtain ⟨rfl, hx⟩ := word_sound h
          exact ⟨a, _, ha, by rw [hs, hx, List.append_assoc], .true⟩
        split at h
        · obtain ⟨rfl, hx⟩ := word_sound h
          exact ⟨a, _, ha, by rw [hs, hx, List.append_assoc], .false⟩
        split at h
        · obtain ⟨rfl, hx⟩ := word_sound h
          exact ⟨a, _, ha, by rw [hs, hx, List.append_assoc], .null⟩
        · obtain ⟨⟨lit, r⟩, h1, h2⟩ := Option.map_eq_some_iff.1 h
          cases h2
          obtain ⟨hx, hn⟩ := number_sound h1
          exact ⟨a, _, ha, by rw [hs, hx, List.append_assoc], .num hn⟩
    · simp only [Json.elements] at h
      split at h
      · cases h
      · rename_i v s1 hv
        obtain ⟨a, t, ha, hs, hsp⟩ := ihv _ _ _ _ hv
        obtain ⟨b, hb, hs1⟩ := skip_sound s1
        split at h
        · rename_i t1 ht1
          obtain ⟨⟨vs', r⟩, h1, h2⟩ := Option.map_eq_some_iff.1 h
          cases h2
          obtain ⟨x, hx, hspx⟩ := ihe _ _ _ _ h1
          rw [ht1] at hs1
          exact ⟨_, by rw [hs, hs1, hx]; simp only [List.append_assoc, List.cons_append, List.nil_append], .elements ha hsp hb hspx⟩
        · rename_i t1 ht1
          cases h
          rw [ht1] at hs1
          exact ⟨_, by rw [hs, hs1]; simp only [List.append_assoc], .element ha hsp hb⟩
        · cases h
    · simp only [Json.members] at h
      obtain ⟨a, ha, hs⟩ := skip_sound s
      split at h
      · rename_i t hsk
        rw [hsk] at hs
        split at h
        · cases h
        · rename_i k s1 hk
          obtain ⟨kb, hkb, hkc⟩ := unquote_sound _ _ _ _ hk
          obtain ⟨b, hb, hs1⟩ := skip_sound s1
          split at h
          · rename_i t1 ht1
            rw [ht1] at hs1
            split at h
            · cases h
            · rename_i v s2 hv
              obtain ⟨c, x, hc, hx, hsp⟩ := ihv _ _ _ _ hv
              obtain ⟨d, hd, hs2⟩ := skip_sound s2
              split at h
              · rename_i t2 ht2
                obtain ⟨⟨ms', r⟩, h1, h2⟩ := Option.map_eq_some_iff.1 h
                cases h2
                obtain ⟨y, hy, hspy⟩ := ihm _ _ _ _ h1
                rw [ht2] at hs2
                exact ⟨_, by rw [hs, hkb, hs1, hx, hs2, hy]; simp only [List.append_assoc, List.cons_append, List.nil_append],
                  .members ha hkc hb hc hsp hd hspy⟩
              · rename_i t2 ht2
                cases h
                rw [ht2] at hs2
                exact ⟨_, by rw [hs, hkb, hs1, hx, hs2]; simp only [List.append_assoc, List.cons_append, List.nil_append],
                  .member ha hkc hb hc hsp hd⟩
              · cases h
          · cases h
      · cases h

/-- Spelling with deeper nesting allowed. -/
theorem spelled_mono {l : Prop} {n m : Nat} {s : Bytes} {p : Phrase} (h : Spelled l n s p) (hm : n ≤ m) : Spelled l m s p := by
  induction h generalizing m with
  | null => exact .null
  | true => exact .true
  | false => exact .false
  | num h => exact .num h
  | str h => exact .str h
  | emptyArr h =>
    obtain ⟨m, rfl⟩ : ∃ k, m = k + 1 := ⟨m - 1, by omega⟩
    exact .emptyArr h
  | arr _ ih =>
    obtain ⟨m, rfl⟩ : ∃ k, m = k + 1 := ⟨m - 1, by omega⟩
    exact .arr (ih (by omega))
  | emptyObj h =>
    obtain ⟨m, rfl⟩ : ∃ k, m = k + 1 := ⟨m - 1, by omega⟩
    exact .emptyObj h
  | obj _ ih =>
    obtain ⟨m, rfl⟩ : ∃ k, m = k + 1 := ⟨m - 1, by omega⟩
    exact .obj (ih (by omega))
  | element ha _ hb ih => exact .element ha (ih hm) hb
  | elements ha _ hb _ ih iht => exact .elements ha (ih hm) hb (iht hm)
  | member ha hk hb hc _ hd ih => exact .member ha hk hb hc (ih hm) hd
  | members ha hk hb hc _ hd _ ih iht => exact .members ha hk hb hc (ih hm) hd (iht hm)

theorem hexDigit_spec {k : Nat} (h : k < 16) : HexDigit (Json.hexDigit k) k := by
  rw [← hexVal_iff]
  have : ∀ k : Fin 16, Json.hexVal (Json.hexDigit k.val) = some k.val := by decide +kernel
  exact this ⟨k, h⟩

/-- The escape of a small code. -/
theorem hex4_small {n : Nat} (h : n < 256) : Hex4 [48, 48, Json.hexDigit (n / 16), Json.hexDigit (n % 16)] n := by
  have h0 : HexDigit 48 0 := .digit (c := 48) (by decide) (by decide)
  have := Hex4.mk h0 h0 (hexDigit_spec (k := n / 16) (by omega)) (hexDigit_spec (k := n % 16) (by omega))
  rwa [show 0 * 4096 + 0 * 256 + n / 16 * 16 + n % 16 = n by omega] at this

theorem quote_step {n : Nat} (hs : Scalar n) {s v : Bytes} {fuel : Nat} (ih : Chars False (Json.quoteLoop fuel s) v) :
    Chars False (Json.quoteLoop (fuel + 1) (utf8 n ++ s)) (utf8 n ++ v) := by
  obtain ⟨c, t, e, h1, h2⟩ := utf8_cons n
  have hdec := decodeRune_utf8 hs s
  rw [e] at hdec ⊢
  simp only [List.cons_append, List.length_cons] at hdec ⊢
  by_cases hn : n < 128
  · obtain ⟨hc, rfl⟩ := h1 hn
    have c4 : c < 128 := by rw [UInt8.lt_iff_toNat_lt, hc]; exact hn
    simp only [List.nil_append, Json.quoteLoop, c4, if_true]
    have hplain : 32 ≤ n → n ≠ 34 → n ≠ 92 → Chars False ([c] ++ Json.quoteLoop fuel s) (c :: v) := by
      intro p1 p2 p3
      have := Chars.plain (loose := False) hs p1 p2 p3 ih
      rw [e] at this
      exact this
    split
    · rename_i hq
      rcases hq with rfl | rfl
      · exact .short .backslash ih
      · exact .short .quote ih
    split
    · rename_i hq; subst hq; exact .short .n ih
    split
    · rename_i hq; subst hq; exact .short .r ih
    split
    · rename_i hq; subst hq; exact .short .t ih
    split
    · have := Chars.code (loose := False) (hex4_small (n := n) (by omega)) hs ih
      rw [e] at this
      rw [hc]
      exact this
    · rename_i q1 q2 q3 q4 q5
      apply hplain
      · have : ¬ c < 32 := fun h => q5 (.inl h)
        rw [UInt8.lt_iff_toNat_lt, hc] at this
        exact Nat.le_of_not_lt this
      · rintro rfl
        exact q1 (.inr (UInt8.toNat.inj hc))
      · rintro rfl
        exact q1 (.inl (UInt8.toNat.inj hc))
  · have hc := h2 (by omega) hs.lt
    have c4 : ¬ c < 128 := by rw [UInt8.lt_iff_toNat_lt]; show ¬ c.toNat < 128; omega
    have htl : t.length ≠ 0 := by
      intro h0
      rw [List.length_eq_zero_iff] at h0
      subst h0
      have : (utf8 n).length = 1 := by rw [e]; rfl
      unfold utf8 at this
      rw [if_neg hn] at this
      split at this
      · cases this
      · split at this <;> cases this
    simp only [Json.quoteLoop, c4, if_false, hdec]
    have hd : (c :: (t ++ s)).drop (t.length + 1) = s := by simp
    have hk : (c :: (t ++ s)).take (t.length + 1) = c :: t := by simp
    rw [hd, hk, if_neg (by rintro ⟨-, h⟩; omega)]
    split
    · rename_i hq
      have hx : Hex4 [50, 48, 50, Json.hexDigit (n % 16)] n := by
        have := Hex4.mk (.digit (c := 50) (by decide) (by decide)) (.digit (c := 48) (by decide) (by decide))
          (.digit (c := 50) (by decide) (by decide)) (hexDigit_spec (k := n % 16) (by omega))
        have e2 : (50 : UInt8).toNat = 50 := rfl
        have e3 : (48 : UInt8).toNat = 48 := rfl
        rw [e2, e3] at this
        rcases hq with rfl | rfl <;> exact this
      have := Chars.code (loose := False) hx hs ih
      rw [e] at this
      exact this
    · have := Chars.plain (loose := False) hs (by omega) (by omega) (by omega) ih
      rw [e] at this
      exact this

theorem quoteLoop_spells {v : Bytes} (h : Utf8 v) : ∀ fuel, v.length ≤ fuel → Chars False (Json.quoteLoop fuel v) v := by
  induction h with
  | nil => intro fuel _; cases fuel <;> exact .nil
  | @cons n s hs _ ih =>
    intro fuel hf
    obtain ⟨c, t, e, -, -⟩ := utf8_cons n
    have : (utf8 n).length = t.length + 1 := by rw [e]; rfl
    rw [List.length_append] at hf
    obtain ⟨fuel, rfl⟩ : ∃ k, fuel = k + 1 := ⟨fuel - 1, by omega⟩
    exact quote_step hs (ih fuel (by omega))

theorem not_char {c : UInt8} {s : Bytes} (h : decodeRune (c :: s) = (runeError, 1)) : ∀ n t, Scalar n → c :: s ≠ utf8 n ++ t := by
  intro n t hn e
  rw [e, decodeRune_utf8 hn] at h
  simp only [Prod.mk.injEq] at h
  rw [h.1] at h
  exact absurd h.2 (by decide)

/-- Any string is written as the text of its repaired version. -/
theorem quoteLoop_repairs : ∀ (k : Nat) (s : Bytes), s.length ≤ k → ∀ fuel, s.length ≤ fuel →
    ∃ v, Repaired s v ∧ Chars False (Json.quoteLoop fuel s) v := by
  intro k
  induction k with
  | zero =>
    intro s hk fuel _
    obtain rfl : s = [] := List.length_eq_zero_iff.1 (by omega)
    exact ⟨[], .nil, by cases fuel <;> exact .nil⟩
  | succ k ih =>
    intro s hk fuel hf
    cases s with
    | nil => exact ⟨[], .nil, by cases fuel <;> exact .nil⟩
    | cons c s =>
      simp only [List.length_cons] at hk hf
      obtain ⟨fuel, rfl⟩ : ∃ k, fuel = k + 1 := ⟨fuel - 1, by omega⟩
      have plain : ∀ n rest, Scalar n → c :: s = utf8 n ++ rest → ∃ v, Repaired (c :: s) v ∧ Chars False (Json.quoteLoop (fuel + 1) (c :: s)) v := by
        intro n rest hn e
        obtain ⟨c', t, e', -, -⟩ := utf8_cons n
        have : (c :: s).length = (utf8 n).length + rest.length := by rw [e, List.length_append]
        have h2 : (utf8 n).length = t.length + 1 := by rw [e']; rfl
        simp only [List.length_cons] at this
        obtain ⟨v, h3, h4⟩ := ih rest (by omega) fuel (by omega)
        rw [e]
        exact ⟨_, .char hn h3, quote_step hn h4⟩
      by_cases hc : c.toNat < 128
      · refine plain c.toNat s (.inl (by omega)) ?_
        unfold utf8
        rw [if_pos hc, toUInt8_toNat]; rfl
      · rcases decodeRune_cases c s (by omega) with hd | ⟨n, rest, h1, -, h3, -⟩
        · obtain ⟨v, h3, h4⟩ := ih s (by omega) fuel (by omega)
          refine ⟨_, .stray (not_char hd) h3, ?_⟩
          have c4 : ¬ c < 128 := by rw [UInt8.lt_iff_toNat_lt]; exact hc
          simp only [Json.quoteLoop, c4, if_false, hd, and_self, if_true, List.drop_succ_cons, List.drop_zero]
          have hx : Hex4 b!"fffd" 0xFFFD := by
            have h15 := HexDigit.lower (c := 102) (by decide) (by decide)
            have h13 := HexDigit.lower (c := 100) (by decide) (by decide)
            exact Hex4.mk h15 h15 h15 h13
          exact .code hx (.inr (by decide)) h4
        · exact plain n rest h1 h3

theorem quote_repairs (s : Bytes) : ∃ v b, Repaired s v ∧ Json.quote s = b!"\"" ++ b ++ b!"\"" ∧ Chars False b v := by
  obtain ⟨v, h1, h2⟩ := quoteLoop_repairs _ s (Nat.le_refl _) _ (Nat.le_refl _)
  exact ⟨v, _, h1, rfl, h2⟩

theorem repaired_utf8 {s v : Bytes} (h : Repaired s v) : Utf8 v := by
  induction h with
  | nil => exact .nil
  | char hn _ ih => exact .cons hn ih
  | stray _ _ ih => exact .cons (.inr (by decide)) ih

/-- Nothing is repaired in a string that is UTF-8. -/
theorem repaired_same {s v : Bytes} (h : Repaired s v) (hu : Utf8 s) : v = s := by
  induction h with
  | nil => rfl
  | @char n s v hn _ ih =>
    rw [ih]
    generalize he : utf8 n ++ s = r at hu
    cases hu with
    | nil =>
      obtain ⟨c, t, e, -⟩ := utf8_cons n
      rw [e] at he; cases he
    | @cons m u hm hu =>
      have h1 := decodeRune_utf8 hn s
      have h2 := decodeRune_utf8 hm u
      rw [he, h2] at h1
      cases h1
      rw [List.append_cancel_left_eq] at he
      rw [he]; exact hu
  | @stray c s v hn _ _ =>
    generalize he : c :: s = r at hu
    cases hu with
    | nil => cases he
    | cons hm _ => exact (hn _ _ hm he).elim

theorem quote_spells {v : Bytes} (h : Utf8 v) : ∃ b, Json.quote v = b!"\"" ++ b ++ b!"\"" ∧ Chars False b v :=
  ⟨_, rfl, quoteLoop_spells h _ (Nat.le_refl _)⟩

theorem ws_nil : Ws [] := fun c h => by cases h

/-- Any value is written as the text of its repaired version. -/
theorem text_repairs {j : Json} (h : Numeric j) : ∃ n k, RepairedIn j k ∧ Spelled False n j.text (.value k) := by
  induction h with
  | null => exact ⟨0, _, .null, .null⟩
  | bool b => cases b <;> exact ⟨0, _, .bool _, by first | exact .true | exact .false⟩
  | num h => exact ⟨0, _, .num _, .num h⟩
  | str s =>
    obtain ⟨v, b, h1, e, hb⟩ := quote_repairs s
    refine ⟨0, _, .str h1, ?_⟩
    show Spelled False 0 (Json.quote _) _
    rw [e]; exact .str hb
  | @arr vs _ ih =>
    have key : ∀ vs : List Json, (∀ v ∈ vs, ∃ n k, RepairedIn v k ∧ Spelled False n v.text (.value k)) → vs ≠ [] →
        ∃ n ks, RepairedIn (.arr vs) (.arr ks) ∧ Spelled False n (Json.textElements vs) (.elements ks) := by
      intro vs
      induction vs with
      | nil => intro _ h; exact (h rfl).elim
      | cons v vs ihv =>
        intro hv _
        obtain ⟨n, k, hk, hn⟩ := hv v (by simp)
        cases vs with
        | nil =>
          have := Spelled.element ws_nil hn ws_nil
          rw [List.append_nil, List.nil_append] at this
          exact ⟨n, _, .arrCons hk .arrNil, this⟩
        | cons w vs =>
          obtain ⟨m, ks, hks, hm⟩ := ihv (fun x hx => hv x (List.mem_cons_of_mem _ hx)) (by simp)
          have := Spelled.elements ws_nil (spelled_mono hn (Nat.le_max_left n m)) ws_nil (spelled_mono hm (Nat.le_max_right n m))
          rw [List.append_nil, List.nil_append] at this
          refine ⟨max n m, _, .arrCons hk hks, ?_⟩
          simp only [List.append_assoc, List.cons_append, List.nil_append] at this
          exact this
    cases vs with
    | nil => exact ⟨1, _, .arrNil, .emptyArr (w := []) ws_nil⟩
    | cons v vs =>
      obtain ⟨n, ks, hks, hn⟩ := key (v :: vs) ih (by simp)
      exact ⟨n + 1, _, hks, .arr hn⟩
  | @obj ms _ ih =>
    have key : ∀ ms : List (Bytes × Json), (∀ m ∈ ms, ∃ n k, RepairedIn m.2 k ∧ Spelled False n m.2.text (.value k)) → ms ≠ [] →
        ∃ n ks, RepairedIn (.obj ms) (.obj ks) ∧ Spelled False n (Json.textMembers ms) (.members ks) := by
      intro ms
      induction ms with
      | nil => intro _ h; exact (h rfl).elim
      | cons x ms ihm =>
        intro hv _
        obtain ⟨n, k, hk, hn⟩ := hv x (by simp)
        obtain ⟨v, b, hv1, e, hb⟩ := quote_repairs x.1
        cases ms with
        | nil =>
          have := Spelled.member ws_nil hb ws_nil ws_nil hn ws_nil
          refine ⟨n, _, .objCons hv1 hk .objNil, ?_⟩
          simp only [List.append_assoc, List.cons_append, List.nil_append, List.append_nil] at this e
          show Spelled False n (Json.quote x.1 ++ 58 :: x.2.text) _
          rw [e]
          simp only [List.append_assoc, List.cons_append, List.nil_append]
          exact this
        | cons y ms =>
          obtain ⟨m, ks, hks, hm⟩ := ihm (fun z hz => hv z (List.mem_cons_of_mem _ hz)) (by simp)
          have := Spelled.members ws_nil hb ws_nil ws_nil (spelled_mono hn (Nat.le_max_left n m)) ws_nil (spelled_mono hm (Nat.le_max_right n m))
          refine ⟨max n m, _, .objCons hv1 hk hks, ?_⟩
          simp only [List.append_assoc, List.cons_append, List.nil_append] at this e
          show Spelled False (max n m) (Json.quote x.1 ++ 58 :: x.2.text ++ 44 :: Json.textMembers (y :: ms)) _
          rw [e]
          simp only [List.append_assoc, List.cons_append, List.nil_append]
          exact this
    cases ms with
    | nil => exact ⟨1, _, .objNil, .emptyObj (w := []) ws_nil⟩
    | cons x ms =>
      obtain ⟨n, ks, hks, hn⟩ := key (x :: ms) ih (by simp)
      exact ⟨n + 1, _, hks, .obj hn⟩

theorem repairedIn_same {j k : Json} (h : RepairedIn j k) (hp : Proper j) : k = j := by
  induction h with
  | null => rfl
  | bool => rfl
  | num => rfl
  | str h => cases hp with | str hu => rw [repaired_same h hu]
  | arrNil => rfl
  | arrCons _ _ ih1 ih2 =>
    cases hp with
    | arr hv =>
      have e1 := ih1 (hv _ (by simp))
      have e2 := ih2 (.arr fun v hm => hv v (by simp [hm]))
      cases e2
      rw [e1]
  | objNil => rfl
  | objCons h _ _ ih1 ih2 =>
    cases hp with
    | obj hk hv =>
      have e1 := ih1 (hv _ (List.mem_cons_self ..))
      have e2 := ih2 (.obj (fun v hm => hk v (by simp [hm])) fun v hm => hv v (by simp [hm]))
      cases e2
      rw [e1, repaired_same h (hk _ (List.mem_cons_self ..))]

theorem proper_numeric {j : Json} (h : Proper j) : Numeric j := by
  induction h with
  | null => exact .null
  | bool b => exact .bool b
  | num h => exact .num h
  | str h => exact .str _
  | arr _ ih => exact .arr ih
  | obj _ _ ih => exact .obj ih

/-- The text of a proper value spells it. -/
theorem text_spelled {j : Json} (h : Proper j) : ∃ n, Spelled False n j.text (.value j) := by
  obtain ⟨n, k, h1, h2⟩ := text_repairs (proper_numeric h)
  rw [repairedIn_same h1 h] at h2
  exact ⟨n, h2⟩

theorem parse_complete {n : Nat} {s : Bytes} {j : Json} (h : Spells n s j) (hn : n ≤ 10000) : Json.parse s = some j := by
  obtain ⟨a, t, b, ha, ht, hb, rfl⟩ := h
  have hs : Stop b := by
    have := stop_ws hb (rest := []) (fun c t e => by cases e)
    rwa [List.append_nil] at this
  have := spelled_reads ht (2 * (a ++ t ++ b).length + 2) Json.maxDepth a b ha hn hs (by simp only [List.length_append]; omega)
  unfold Json.parse
  rw [this]
  have : Json.skip b = [] := by
    have := skip_ws hb (s := [])
    rw [List.append_nil] at this
    rw [this]; rfl
  simp [this]

theorem parse_sound {s : Bytes} {j : Json} (h : Json.parse s = some j) : SpellsLoosely 10000 s j := by
  unfold Json.parse at h
  split at h
  · rename_i v rest hv
    split at h
    · rename_i hsk
      cases h
      obtain ⟨a, t, ha, hs, hsp⟩ := (reads_spelled _).1 _ _ _ _ hv
      obtain ⟨b, hb, hr⟩ := skip_sound rest
      rw [hsk, List.append_nil] at hr
      exact ⟨a, t, b, ha, hsp, hb, by rw [hs, hr]⟩
    · cases h
  · cases h

theorem utf8_single {b : UInt8} (h : b < 128) {v : Bytes} (hv : Utf8 v) : Utf8 (b :: v) := by
  have hb : b.toNat < 128 := by rw [UInt8.lt_iff_toNat_lt] at h; exact h
  have := Utf8.cons (n := b.toNat) (.inl (by omega)) hv
  unfold utf8 at this
  rw [if_pos hb, toUInt8_toNat] at this
  exact this

theorem chars_utf8 {loose : Prop} {s v : Bytes} (h : Chars loose s v) : Utf8 v := by
  induction h with
  | nil => exact .nil
  | plain hn _ _ _ _ ih => exact .cons hn ih
  | short he _ ih => cases he <;> exact utf8_single (by decide) ih
  | code _ hn _ ih => exact .cons hn ih
  | pair hm hn h1 h2 h3 h4 _ ih => exact .cons (.inr (by omega)) ih
  | half _ _ _ _ _ ih => exact .cons (.inr (by decide)) ih
  | stray _ _ _ ih => exact .cons (.inr (by decide)) ih

/-- What a phrase is made of is proper. -/
def ProperPhrase : Phrase → Prop
  | .value j => Proper j
  | .elements vs => ∀ v ∈ vs, Proper v
  | .members ms => (∀ m ∈ ms, Utf8 m.1) ∧ ∀ m ∈ ms, Proper m.2

theorem spelled_proper {loose : Prop} {n : Nat} {s : Bytes} {p : Phrase} (h : Spelled loose n s p) : ProperPhrase p := by
  induction h with
  | null => exact .null
  | true => exact .bool _
  | false => exact .bool _
  | num h => exact .num h
  | str h => exact .str (chars_utf8 h)
  | emptyArr _ => exact .arr (fun v h => by cases h)
  | arr _ ih => exact .arr ih
  | emptyObj _ => exact .obj (fun v h => by cases h) (fun v h => by cases h)
  | obj _ ih => exact .obj ih.1 ih.2
  | element _ _ _ ih => intro v hv; rw [List.mem_singleton] at hv; subst hv; exact ih
  | elements _ _ _ _ ih1 ih2 =>
    intro v hv
    rcases List.mem_cons.1 hv with rfl | hv
    · exact ih1
    · exact ih2 v hv
  | member _ hk _ _ _ _ ih =>
    constructor
    · intro m hm; rw [List.mem_singleton] at hm; subst hm; exact chars_utf8 hk
    · intro m hm; rw [List.mem_singleton] at hm; subst hm; exact ih
  | members _ hk _ _ _ _ _ ih1 ih2 =>
    constructor
    · intro m hm
      rcases List.mem_cons.1 hm with rfl | hm
      · exact chars_utf8 hk
      · exact ih2.1 m hm
    · intro m hm
      rcases List.mem_cons.1 hm with rfl | hm
      · exact ih1
      · exact ih2.2 m hm

theorem parse_proper {s : Bytes} {j : Json} (h : Json.parse s = some j) : Proper j := by
  obtain ⟨a, t, b, -, h, -, -⟩ := parse_sound h
  exact spelled_proper h

end Teal.JsonSpec
