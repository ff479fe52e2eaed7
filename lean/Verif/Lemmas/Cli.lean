import Verif.Spec.Cli

/-!
# Lemmas about command lines
-/

namespace Teal.CliSpec

open Teal Teal.Cli

/-- A name an option can have. -/
abbrev Name (n : Bytes) : Prop := n ≠ [] ∧ 61 ∉ n ∧ n.head? ≠ some 45

theorem split_eq {n v : Bytes} (h : 61 ∉ n) : (n ++ 61 :: v).takeWhile (· != 61) = n ∧ (n ++ 61 :: v).dropWhile (· != 61) = 61 :: v := by
  induction n with
  | nil => exact ⟨rfl, rfl⟩
  | cons c n ih =>
    have hc : (c != 61) = true := by
      simp only [bne_iff_ne]; rintro rfl; exact h List.mem_cons_self
    obtain ⟨h1, h2⟩ := ih (fun h' => h (List.mem_cons_of_mem _ h'))
    simp only [List.cons_append, List.takeWhile_cons, List.dropWhile_cons, hc, if_true, h1, h2, true_and]

theorem split_none {n : Bytes} (h : 61 ∉ n) : n.takeWhile (· != 61) = n ∧ n.dropWhile (· != 61) = [] := by
  induction n with
  | nil => exact ⟨rfl, rfl⟩
  | cons c n ih =>
    have hc : (c != 61) = true := by
      simp only [bne_iff_ne]; rintro rfl; exact h List.mem_cons_self
    obtain ⟨h1, h2⟩ := ih (fun h' => h (List.mem_cons_of_mem _ h'))
    simp only [List.takeWhile_cons, List.dropWhile_cons, hc, if_true, h1, h2, true_and]

theorem take_no_eq (s : Bytes) : 61 ∉ s.takeWhile (· != 61) := by
  induction s with
  | nil => simp
  | cons c s ih =>
    rw [List.takeWhile_cons]
    split
    · rename_i hc
      rintro h
      rcases List.mem_cons.1 h with rfl | h
      · exact absurd hc (by decide)
      · exact ih h
    · simp

theorem drop_head {s : Bytes} {c : UInt8} {t : Bytes} (h : s.dropWhile (· != 61) = c :: t) : c = 61 ∧ s = s.takeWhile (· != 61) ++ 61 :: t := by
  induction s with
  | nil => cases h
  | cons d s ih =>
    rw [List.dropWhile_cons] at h
    rw [List.takeWhile_cons]
    split at h
    · rename_i hd
      obtain ⟨h1, h2⟩ := ih h
      rw [if_pos hd]
      exact ⟨h1, by rw [List.cons_append, ← h2]⟩
    · rename_i hd
      cases h
      have : c = 61 := by
        cases hc : (c != 61) with
        | true => exact absurd hc hd
        | false => simpa using hc
      subst this
      rw [if_neg hd]
      exact ⟨rfl, rfl⟩

theorem drop_nil {s : Bytes} (h : s.dropWhile (· != 61) = []) : s.takeWhile (· != 61) = s := by
  have := List.takeWhile_append_dropWhile (p := (· != 61)) (l := s)
  rw [h, List.append_nil] at this
  exact this

/-- The words of an option are read as that option. -/
theorem parse_option {names : List Bytes} (hn : ∀ n ∈ names, Name n) {n v : Bytes} {o : List Bytes} (hm : n ∈ names) (ho : Option1 n v o)
    (ws : List Bytes) : parseFlags names (o ++ ws) = (parseFlags names ws).add n v := by
  obtain ⟨h0, h1, h2⟩ := hn n hm
  obtain ⟨c, t, rfl⟩ : ∃ c t, n = c :: t := by
    cases n with
    | nil => exact absurd rfl h0
    | cons c t => exact ⟨c, t, rfl⟩
  have hc : c ≠ 45 := fun e => h2 (by rw [e]; rfl)
  have he : c ≠ 61 := fun e => h1 (by rw [e]; exact List.mem_cons_self)
  obtain ⟨e1, e2⟩ := split_eq (v := v) h1
  obtain ⟨f1, f2⟩ := split_none h1
  have g1 : ¬ ((some c : Option UInt8) = some 45 ∨ (some c : Option UInt8) = some 61) := by
    rintro (h | h) <;> cases h
    · exact hc rfl
    · exact he rfl
  cases ho with
  | joined =>
    simp only [List.cons_append, List.nil_append] at e1 e2 ⊢
    simp only [parseFlags, hc, false_and, if_false, List.head?_cons, g1, e1, e2, hm, if_true]
  | joined2 =>
    simp only [List.cons_append, List.nil_append] at e1 e2 ⊢
    simp only [parseFlags, true_and, reduceCtorEq, if_false, if_true, List.head?_cons, g1, e1, e2, hm]
  | apart =>
    simp only [List.cons_append, List.nil_append]
    simp only [parseFlags, hc, false_and, if_false, List.head?_cons, g1, f1, f2, hm, if_true]
  | apart2 =>
    simp only [List.cons_append, List.nil_append]
    simp only [parseFlags, true_and, reduceCtorEq, if_false, if_true, List.head?_cons, g1, f1, f2, hm]

theorem parse_of_line {names : List Bytes} (hn : ∀ n ∈ names, Name n) {ws : List Bytes} {l : List (Bytes × Bytes)} (h : Line names ws l) :
    parseFlags names ws = .values l := by
  induction h with
  | done => rfl
  | dashes ws => simp [parseFlags]
  | @plain w ws hp =>
    rcases hp with hp | rfl
    · cases w with
      | nil => rfl
      | cons c t =>
        cases t with
        | nil => unfold parseFlags; split <;> first | rfl | (rename_i e; cases e)
        | cons d t =>
          unfold parseFlags
          split
          · rename_i e; cases e; exact absurd rfl hp
          · rfl
    · rfl
  | option hm ho _ ih => rw [parse_option hn hm ho, ih]; rfl

theorem line_of_parse {names : List Bytes} : ∀ (k : Nat) (ws : List Bytes), ws.length ≤ k → ∀ l, parseFlags names ws = .values l → Line names ws l
  | _, [], _, l, h => by cases h; exact .done
  | 0, _ :: _, hk, _, _ => absurd hk (by simp)
  | k + 1, s :: rest, hk, l, h => by
    have add : ∀ {n v : Bytes} {p : Parsed} {l : List (Bytes × Bytes)}, p.add n v = .values l → ∃ l', p = .values l' ∧ l = (n, v) :: l' := by
      intro n v p l h
      cases p with
      | values l' => cases h; exact ⟨l', rfl, rfl⟩
      | help => cases h
      | wrong => cases h
    unfold parseFlags at h
    split at h
    · rename_i c t
      split at h
      · rename_i hc
        obtain ⟨rfl, rfl⟩ := hc
        cases h; exact .dashes _
      · rename_i hc
        dsimp only at h
        generalize hname : (if c = 45 then t else c :: t) = name at h
        split at h
        · cases h
        · split at h
          · rename_i hm
            have whole : (45 :: c :: t : Bytes) = 45 :: name ∨ (45 :: c :: t : Bytes) = 45 :: 45 :: name := by
              split at hname
              · rename_i e; subst hname; subst e; exact .inr rfl
              · subst hname; exact .inl rfl
            split at h
            · rename_i e
              obtain ⟨rfl, e'⟩ := drop_head e
              obtain ⟨l', hl, rfl⟩ := add h
              have := line_of_parse k rest (by simpa using hk) l' hl
              rcases whole with w | w
              · rw [w, congrArg (45 :: ·) e']
                exact .option (o := [_]) hm .joined this
              · rw [w, congrArg (45 :: 45 :: ·) e']
                exact .option (o := [_]) hm .joined2 this
            · rename_i e
              have e' := drop_nil e
              split at h
              · cases h
              · rename_i v rest
                obtain ⟨l', hl, rfl⟩ := add h
                have := line_of_parse k rest (by simp only [List.length_cons] at hk; omega) l' hl
                rw [e'] at hm ⊢
                rcases whole with w | w
                · rw [w]
                  exact .option (o := [_, _]) hm .apart this
                · rw [w]
                  exact .option (o := [_, _]) hm .apart2 this
          · split at h <;> cases h
    · rename_i hs
      cases h
      refine .plain _ ?_
      cases s with
      | nil => exact .inl (by simp)
      | cons c t =>
        by_cases hc : c = 45
        · subst hc
          cases t with
          | nil => exact .inr rfl
          | cons d t => exact absurd rfl (hs d t)
        · refine .inl ?_
          simp only [List.head?_cons, ne_eq, Option.some.injEq]
          exact hc

theorem line_iff {names : List Bytes} (hn : ∀ n ∈ names, Name n) {ws : List Bytes} {l : List (Bytes × Bytes)} :
    parseFlags names ws = .values l ↔ Line names ws l :=
  ⟨line_of_parse _ ws (Nat.le_refl _) l, parse_of_line hn⟩

theorem value_iff {l : List (Bytes × Bytes)} {n d v : Bytes} : Value l n d v ↔ valueOf l n d = v := by
  have key : ∀ (r : List (Bytes × Bytes)), (∀ x ∈ r, x.1 ≠ n) → r.find? (·.1 == n) = none := by
    intro r h
    rw [List.find?_eq_none]
    intro x hx
    simpa using h x hx
  constructor
  · intro h
    cases h with
    | @last a b _ e hb =>
      subst e
      unfold valueOf
      rw [List.reverse_append, List.reverse_cons, List.append_assoc, List.find?_append, key _ (fun x hx => hb x (List.mem_reverse.1 hx))]
      simp
    | default h =>
      unfold valueOf
      rw [key _ (fun x hx => h x (List.mem_reverse.1 hx))]
      rfl
  · intro h
    unfold valueOf at h
    cases hf : l.reverse.find? (·.1 == n) with
    | none =>
      rw [hf] at h
      have h : d = v := h
      subst h
      refine .default fun x hx => ?_
      have := List.find?_eq_none.1 hf x (List.mem_reverse.2 hx)
      simpa using this
    | some x =>
      rw [hf] at h
      have h : x.2 = v := h
      obtain ⟨hx, as, bs, e, ha⟩ := List.find?_eq_some_iff_append.1 hf
      have hx : x.1 = n := by simpa using hx
      obtain ⟨x1, x2⟩ := x
      subst hx
      have h : x2 = v := h
      subst h
      refine .last (a := bs.reverse) (b := as.reverse) ?_ ?_
      · rw [← List.reverse_reverse l, e]; simp
      · intro y hy
        have := ha y (List.mem_reverse.1 hy)
        simpa using this

theorem trace_iff {l : List (Bytes × Bytes)} {d : Bytes} {t : Option Bytes} : Trace l d t ↔ traceOf l d = t := by
  unfold Trace traceOf
  constructor
  · rintro ⟨f, hf, h1, h2⟩
    rw [value_iff.1 hf]
    split
    · rename_i h; exact (h2 h).symm
    · rename_i h; exact (h1 (Classical.not_not.1 h)).symm
  · intro h
    refine ⟨_, value_iff.2 rfl, fun e => ?_, fun e => ?_⟩
    · rw [if_neg (fun h => h e)] at h; exact h.symm
    · rw [if_pos e] at h; exact h.symm

theorem connection_iff {l : List (Bytes × Bytes)} {c : Option (Bytes × Bytes)} : Connection l c ↔ connectionOf l = c := by
  unfold Connection connectionOf
  constructor
  · rintro ⟨n, a, hn, ha, h1, h2⟩
    rw [value_iff.1 hn, value_iff.1 ha]
    split
    · rename_i h; exact (h2 h.2 h.1).symm
    · rename_i h
      refine (h1 ?_).symm
      by_cases hn : n = []
      · exact .inl hn
      · exact .inr (Classical.byContradiction fun ha => h ⟨ha, hn⟩)
  · intro h
    refine ⟨_, _, value_iff.2 rfl, value_iff.2 rfl, fun e => ?_, fun e e' => ?_⟩
    · rw [if_neg (fun h => e.elim (fun e => h.2 e) (fun e => h.1 e))] at h; exact h.symm
    · rw [if_pos ⟨e', e⟩] at h; exact h.symm

theorem possible_iff {w : World} {s : Serving} : Possible w s ↔ ((s.connection.all fun c => w.dials c.1 c.2) && s.trace.all w.creates) = true := by
  obtain ⟨p, c, t⟩ := s
  unfold Possible
  rcases c with _ | ⟨n, a⟩ <;> cases t <;> simp

theorem begin_serves {w : World} {s s' : Serving} : begin w s = .serves s' ↔ s = s' ∧ Possible w s := by
  unfold begin
  rw [possible_iff]
  split
  · rename_i h
    simp only [Start.serves.injEq, h, and_true]
  · rename_i h
    simp [h]

theorem begin_panics {w : World} {s : Serving} : begin w s = .panics ↔ ¬ Possible w s := by
  unfold begin
  rw [possible_iff]
  split
  · rename_i h
    simp [h]
  · rename_i h
    simp [h]

theorem asks_iff {ws : List Bytes} {s : Serving} : Asks ws s ↔
    (∃ l, ws.head? = some b!"dbg" ∧ parseFlags [b!"debug"] ws.tail = .values l ∧ s = ⟨.debug, none, traceOf l []⟩) ∨
    ∃ l, ws.head? ≠ some b!"dbg" ∧ parseFlags [b!"net", b!"addr", b!"debug"] ws = .values l ∧ s = ⟨.language, connectionOf l, traceOf l []⟩ := by
  constructor
  · intro h
    cases h with
    | debug hl ht => exact .inl ⟨_, rfl, parse_of_line (by decide) hl, by rw [trace_iff.1 ht]⟩
    | language hw hl hc ht => exact .inr ⟨_, hw, parse_of_line (by decide) hl, by rw [trace_iff.1 ht, connection_iff.1 hc]⟩
  · rintro (⟨l, hw, hl, rfl⟩ | ⟨l, hw, hl, rfl⟩)
    · obtain ⟨ws', rfl⟩ : ∃ ws', ws = b!"dbg" :: ws' := by
        cases ws with
        | nil => cases hw
        | cons a b => simp only [List.head?_cons, Option.some.injEq] at hw; exact ⟨b, by rw [hw]⟩
      exact .debug ((line_iff (by decide)).1 hl) (trace_iff.2 rfl)
    · exact .language hw ((line_iff (by decide)).1 hl) (connection_iff.2 rfl) (trace_iff.2 rfl)

end Teal.CliSpec
