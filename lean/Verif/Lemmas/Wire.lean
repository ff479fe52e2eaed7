import Verif.Model.Wire
import Verif.Spec.Wire
import Verif.Lemmas.Json2
import Verif.Lemmas.Strconv

/-!
# Lemmas: Go values from JSON
-/

namespace Teal.WireSpec

open Teal Teal.Spec Teal.JsonSpec Teal.Wire

/-! ## Names -/

def Ascii (s : Bytes) : Prop := ∀ c ∈ s, c < 128

instance (s : Bytes) : Decidable (Ascii s) := inferInstanceAs (Decidable (∀ c ∈ s, c < 128))

theorem fold_letter (c b : UInt8) (hc : c < 128) (hb : b < 128) :
    (c == b || (65 ≤ (c &&& 0xDF) && (c &&& 0xDF) ≤ 90 && (c &&& 0xDF) == (b &&& 0xDF))) = decide (lower c = lower b) := by
  have key : ∀ c : Fin 128, ∀ b : Fin 128,
      ((UInt8.ofNat c.val) == (UInt8.ofNat b.val) || (65 ≤ ((UInt8.ofNat c.val) &&& 0xDF) && ((UInt8.ofNat c.val) &&& 0xDF) ≤ 90 &&
        ((UInt8.ofNat c.val) &&& 0xDF) == ((UInt8.ofNat b.val) &&& 0xDF))) = decide (lower (UInt8.ofNat c.val) = lower (UInt8.ofNat b.val)) := by
    decide +kernel
  have h := key ⟨c.toNat, by rw [UInt8.lt_iff_toNat_lt] at hc; exact hc⟩ ⟨b.toNat, by rw [UInt8.lt_iff_toNat_lt] at hb; exact hb⟩
  simpa using h

theorem lower_high {b : UInt8} (h : ¬ b < 128) : lower b = b := by
  have : ∀ b : UInt8, ¬ b < 128 → lower b = b := forall_byte (by decide +kernel)
  exact this b h

theorem lower_low {c : UInt8} (h : c < 128) : lower c < 128 := by
  have : ∀ b : UInt8, b < 128 → lower b < 128 := forall_byte (by decide +kernel)
  exact this c h

theorem isS (c : UInt8) : (c == 115 || c == 83) = decide (lower c = 115) := by
  have : ∀ c : UInt8, (c == 115 || c == 83) = decide (lower c = 115) := forall_byte (by decide +kernel)
  exact this c

theorem isK (c : UInt8) : (c == 107 || c == 75) = decide (lower c = 107) := by
  have : ∀ c : UInt8, (c == 107 || c == 75) = decide (lower c = 107) := forall_byte (by decide +kernel)
  exact this c

theorem decode_longS {b : UInt8} {t : Bytes} (h : ¬ b < 128) : (decodeRune (b :: t)).1 = 0x17F ↔ b = 0xC5 ∧ t.head? = some 0xBF := by
  have hb : 128 ≤ b.toNat := by rw [UInt8.lt_iff_toNat_lt] at h; exact Nat.le_of_not_lt h
  constructor
  · intro e
    rcases decodeRune_cases b t hb with h1 | ⟨n, rest, -, -, h3, h4⟩
    · rw [h1] at e; cases e
    · rw [h4] at e
      cases e
      cases h3
      exact ⟨rfl, rfl⟩
  · rintro ⟨rfl, h2⟩
    cases t with
    | nil => cases h2
    | cons c t =>
      cases h2
      have := decodeRune_utf8 (n := 0x17F) (.inl (by decide)) t
      exact congrArg (·.1) this

theorem decode_kelvin {b : UInt8} {t : Bytes} (h : ¬ b < 128) :
    (decodeRune (b :: t)).1 = 0x212A ↔ b = 0xE2 ∧ ∃ u, t = 0x84 :: 0xAA :: u := by
  have hb : 128 ≤ b.toNat := by rw [UInt8.lt_iff_toNat_lt] at h; exact Nat.le_of_not_lt h
  constructor
  · intro e
    rcases decodeRune_cases b t hb with h1 | ⟨n, rest, -, -, h3, h4⟩
    · rw [h1] at e; cases e
    · rw [h4] at e
      cases e
      cases h3
      exact ⟨rfl, rest, rfl⟩
  · rintro ⟨rfl, u, rfl⟩
    have := decodeRune_utf8 (n := 0x212A) (.inl (by decide)) u
    exact congrArg (·.1) this

theorem alike_iff (s : Bytes) : ∀ t, Ascii s → (equalFold s t = true ↔ Alike s t) := by
  induction s with
  | nil =>
    intro t _
    cases t with
    | nil => exact ⟨fun _ => .nil, fun _ => rfl⟩
    | cons b t => exact ⟨fun h => (by cases h), fun h => (by cases h)⟩
  | cons c s ih =>
    intro t hs
    have hc : c < 128 := hs c (by simp)
    have ih := fun t => ih t (fun x hx => hs x (by simp [hx]))
    cases t with
    | nil => exact ⟨fun h => (by cases h), fun h => (by cases h)⟩
    | cons b t =>
      by_cases hb : b < 128
      · simp only [equalFold, hb, if_true, fold_letter c b hc hb, Bool.and_eq_true, decide_eq_true_eq, ih]
        constructor
        · rintro ⟨h1, h2⟩; exact .letter h1 h2
        · intro h
          cases h with
          | letter h1 h2 => exact ⟨h1, h2⟩
          | longS => exact absurd hb (by decide)
          | kelvin => exact absurd hb (by decide)
      · simp only [equalFold, hb, if_false, Bool.or_eq_true, Bool.and_eq_true, beq_iff_eq, isS, isK, decide_eq_true_eq, ih, decode_longS hb,
          decode_kelvin hb]
        constructor
        · rintro (⟨⟨h1, rfl, h2⟩, h3⟩ | ⟨⟨h1, rfl, u, rfl⟩, h3⟩)
          · cases t with
            | nil => cases h2
            | cons x t => cases h2; exact .longS h1 h3
          · exact .kelvin h1 h3
        · intro h
          cases h with
          | letter h1 h2 =>
            rw [lower_high hb] at h1
            have := lower_low hc
            rw [h1] at this
            exact absurd this hb
          | longS h1 h2 => exact .inl ⟨⟨h1, rfl, rfl⟩, h2⟩
          | kelvin h1 h2 => exact .inr ⟨⟨h1, rfl, _, rfl⟩, h2⟩

theorem alike_refl (s : Bytes) : Alike s s := by
  induction s with
  | nil => exact .nil
  | cons c s ih => exact .letter rfl ih

/-- Names that are like one name are the same but for the case of letters. -/
theorem alike_same {s t : Bytes} (h : Alike s t) : ∀ {r}, Ascii s → Ascii r → Alike r t → s.map lower = r.map lower := by
  induction h with
  | nil => intro r _ _ h; cases h; rfl
  | @letter c b s t h1 _ ih =>
    intro r hs hr h
    cases h with
    | letter h2 h3 =>
      simp only [List.map_cons]
      rw [h1, h2, ih (fun x hx => hs x (by simp [hx])) (fun x hx => hr x (by simp [hx])) h3]
    | longS h2 h3 =>
      have := lower_low (hs c (by simp))
      rw [h1] at this
      exact absurd this (by decide)
    | kelvin h2 h3 =>
      have := lower_low (hs c (by simp))
      rw [h1] at this
      exact absurd this (by decide)
  | @longS c s t h1 _ ih =>
    intro r hs hr h
    cases h with
    | @letter c' _ _ _ h2 h3 =>
      have := lower_low (hr c' (by simp))
      rw [h2] at this
      exact absurd this (by decide)
    | longS h2 h3 =>
      simp only [List.map_cons]
      rw [h1, h2, ih (fun x hx => hs x (by simp [hx])) (fun x hx => hr x (by simp [hx])) h3]
  | @kelvin c s t h1 _ ih =>
    intro r hs hr h
    cases h with
    | @letter c' _ _ _ h2 h3 =>
      have := lower_low (hr c' (by simp))
      rw [h2] at this
      exact absurd this (by decide)
    | kelvin h2 h3 =>
      simp only [List.map_cons]
      rw [h1, h2, ih (fun x hx => hs x (by simp [hx])) (fun x hx => hr x (by simp [hx])) h3]

theorem alike_of_lower {s t : Bytes} (h : Alike s t) : ∀ {r : Bytes}, r.map lower = s.map lower → Alike r t := by
  induction h with
  | nil => intro r h; cases r with | nil => exact .nil | cons => cases h
  | letter h1 _ ih =>
    intro r h
    cases r with
    | nil => cases h
    | cons x r => simp only [List.map_cons, List.cons.injEq] at h; exact .letter (h.1.trans h1) (ih h.2)
  | longS h1 _ ih =>
    intro r h
    cases r with
    | nil => cases h
    | cons x r => simp only [List.map_cons, List.cons.injEq] at h; exact .longS (h.1.trans h1) (ih h.2)
  | kelvin h1 _ ih =>
    intro r h
    cases r with
    | nil => cases h
    | cons x r => simp only [List.map_cons, List.cons.injEq] at h; exact .kelvin (h.1.trans h1) (ih h.2)

/-! ## Structures -/

/-- Fields that can be set in any order. -/
def Commute {α : Type} (f g : Dec α) : Prop := ∀ a v w, ((f a v).bind fun b => g b w) = (g a w).bind fun b => f b v

theorem commute_lens {α β γ : Type} {d : Dec β} {e : Dec γ} {get : α → β} {set : α → β → α} {get' : α → γ} {set' : α → γ → α}
    (h1 : ∀ a v, get' (set a v) = get' a) (h2 : ∀ a v, get (set' a v) = get a) (h3 : ∀ a v w, set' (set a v) w = set (set' a w) v) :
    Commute (fun a j => (d (get a) j).map (set a)) (fun a j => (e (get' a) j).map (set' a)) := by
  intro a v w
  dsimp only
  cases hd : d (get a) v with
  | none =>
    cases he : e (get' a) w with
    | none => rfl
    | some y => simp [h2, hd]
  | some x =>
    cases he : e (get' a) w with
    | none => simp [h1, he]
    | some y => simp [h1, h2, hd, he, h3]

/-- The fields of a structure: their names are ASCII and differ in more than the case of letters. -/
structure Table {α : Type} (fs : List (Field α)) : Prop where
  ascii : ∀ f ∈ fs, Ascii f.1
  names : fs.Pairwise fun f g => f.1.map lower ≠ g.1.map lower
  comm : fs.Pairwise fun f g => Commute f.2 g.2

/-- The first member with a name like `k`. -/
def pick (ms : List (Bytes × Json)) (k : Bytes) : Option Json := (ms.find? fun m => equalFold k m.1).map (·.2)

/-- At most one member has a name like `k`. -/
def Once (ms : List (Bytes × Json)) (k : Bytes) : Prop := (ms.filter fun m => equalFold k m.1).length ≤ 1

/-- Decoding the fields in the order of the structure. -/
def fill {α : Type} (ms : List (Bytes × Json)) (a : α) (f : Field α) : Option α :=
  match pick ms f.1 with
  | none => some a
  | some v => f.2 a v

theorem lookup_some {α : Type} {fs : List (Field α)} (T : Table fs) {f : Field α} (hf : f ∈ fs) {k : Bytes} (h : Alike f.1 k) :
    lookup fs k = some f.2 := by
  have uniq : ∀ g ∈ fs, Alike g.1 k → g = f := by
    intro g hg ha
    have e := alike_same ha (T.ascii g hg) (T.ascii f hf) h
    have := T.names
    obtain ⟨i, hi, rfl⟩ := List.getElem_of_mem hf
    obtain ⟨j, hj, rfl⟩ := List.getElem_of_mem hg
    rw [List.pairwise_iff_getElem] at this
    rcases Nat.lt_trichotomy i j with hlt | heq | hgt
    · exact (this i j hi hj hlt e.symm).elim
    · subst heq; rfl
    · exact (this j i hj hi hgt e).elim
  unfold lookup
  cases h1 : fs.find? (·.1 == k) with
  | some g =>
    have hm := List.mem_of_find?_eq_some h1
    have he := List.find?_some h1
    have : Alike g.1 k := by rw [beq_iff_eq.1 he]; exact alike_refl _
    simp [uniq g hm this]
  | none =>
    cases h2 : fs.find? fun f => equalFold f.1 k with
    | none =>
      rw [List.find?_eq_none] at h2
      exact absurd ((alike_iff _ _ (T.ascii f hf)).2 h) (h2 f hf)
    | some g =>
      have hm := List.mem_of_find?_eq_some h2
      have he := List.find?_some h2
      simp [uniq g hm ((alike_iff _ _ (T.ascii g hm)).1 he)]

theorem lookup_none {α : Type} {fs : List (Field α)} {k : Bytes} (h : ∀ f ∈ fs, equalFold f.1 k = false) (hs : ∀ f ∈ fs, Ascii f.1) :
    lookup fs k = none := by
  unfold lookup
  have h1 : fs.find? (·.1 == k) = none := by
    rw [List.find?_eq_none]
    intro f hf he
    have := (alike_iff f.1 k (hs f hf)).2 (by rw [beq_iff_eq.1 he]; exact alike_refl _)
    rw [h f hf] at this; cases this
  have h2 : (fs.find? fun f => equalFold f.1 k) = none := by
    rw [List.find?_eq_none]
    intro f hf he
    rw [h f hf] at he; cases he
  rw [h1, h2]; rfl

theorem fill_commute {α : Type} (ms : List (Bytes × Json)) (d : Dec α) (v : Json) : ∀ (l : List (Field α)) (a : α),
    (∀ g ∈ l, Commute d g.2) →
    ((d a v).bind fun b => l.foldlM (fill ms) b) = (l.foldlM (fill ms) a).bind fun b => d b v := by
  intro l
  induction l with
  | nil =>
    intro a _
    show ((d a v).bind some) = d a v
    cases d a v <;> rfl
  | cons g l ih =>
    intro a h
    simp only [List.foldlM_cons]
    have hg := h g (by simp)
    have ih := fun b => ih b (fun x hx => h x (by simp [hx]))
    unfold fill
    cases hp : pick ms g.1 with
    | none => exact ih a
    | some w =>
      have := hg a v w
      show ((d a v).bind fun b => (g.2 b w).bind fun c => l.foldlM (fill ms) c) = ((g.2 a w).bind fun c => l.foldlM (fill ms) c).bind fun b => d b v
      rw [Option.bind_assoc]
      have e : ((d a v).bind fun b => (g.2 b w).bind fun c => l.foldlM (fill ms) c) = ((d a v).bind fun b => g.2 b w).bind fun c => l.foldlM (fill ms) c := by
        rw [Option.bind_assoc]
      rw [e, this, Option.bind_assoc]
      congr 1
      funext c
      exact ih c

/-- With at most one member for each field, the members can be decoded in the order of the fields. -/
theorem members_eq {α : Type} {fs : List (Field α)} (T : Table fs) : ∀ (ms : List (Bytes × Json)) (a : α), (∀ f ∈ fs, Once ms f.1) →
    members fs a ms = fs.foldlM (fill ms) a := by
  intro ms
  induction ms with
  | nil =>
    intro a _
    have : ∀ (l : List (Field α)) (a : α), l.foldlM (fill []) a = some a := by
      intro l
      induction l with
      | nil => intro a; rfl
      | cons g l ih => intro a; rw [List.foldlM_cons]; exact ih a
    rw [this]; rfl
  | cons m ms ih =>
    intro a h
    obtain ⟨k, v⟩ := m
    have honce : ∀ f ∈ fs, Once ms f.1 := by
      intro f hf
      have := h f hf
      unfold Once at this ⊢
      rw [List.filter_cons] at this
      split at this
      · simp only [List.length_cons] at this; omega
      · exact this
    by_cases hk : ∃ f ∈ fs, equalFold f.1 k = true
    · obtain ⟨f, hf, he⟩ := hk
      have ha := (alike_iff _ _ (T.ascii f hf)).1 he
      have hl := lookup_some T hf ha
      obtain ⟨l, r, rfl⟩ := List.append_of_mem hf
      have hnone : pick ms f.1 = none := by
        have := h f hf
        unfold Once at this
        rw [List.filter_cons, if_pos he] at this
        simp only [List.length_cons] at this
        have h0 : (ms.filter fun m => equalFold f.1 m.1) = [] := List.length_eq_zero_iff.1 (by omega)
        unfold pick
        rw [List.filter_eq_nil_iff] at h0
        rw [Option.map_eq_none_iff, List.find?_eq_none]
        exact h0
      have hother : ∀ g ∈ l ++ r, pick ((k, v) :: ms) g.1 = pick ms g.1 := by
        intro g hg
        have hgm : g ∈ l ++ f :: r := by
          rcases List.mem_append.1 hg with h | h
          · exact List.mem_append_left _ h
          · exact List.mem_append_right _ (List.mem_cons_of_mem _ h)
        have hne : equalFold g.1 k = false := by
          rw [Bool.eq_false_iff]
          intro hc
          have e := alike_same ((alike_iff _ _ (T.ascii g hgm)).1 hc) (T.ascii g hgm) (T.ascii f hf) ha
          have hn := T.names
          rw [List.pairwise_append] at hn
          obtain ⟨-, hn2, hn3⟩ := hn
          rw [List.pairwise_cons] at hn2
          rcases List.mem_append.1 hg with h | h
          · exact hn3 g h f (by simp) e
          · exact hn2.1 g h e.symm
        unfold pick
        simp only [List.find?_cons, hne]
      have hfold : ∀ (xs : List (Field α)), (∀ g ∈ xs, g ∈ l ++ r) → ∀ b, xs.foldlM (fill ((k, v) :: ms)) b = xs.foldlM (fill ms) b := by
        intro xs
        induction xs with
        | nil => intro _ b; rfl
        | cons g xs ihx =>
          intro hx b
          rw [List.foldlM_cons, List.foldlM_cons]
          have : fill ((k, v) :: ms) b g = fill ms b g := by unfold fill; rw [hother g (hx g (by simp))]
          rw [this]
          congr 1
          funext c
          exact ihx (fun g hg => hx g (by simp [hg])) c
      have hcomm : ∀ g ∈ l, Commute f.2 g.2 := by
        intro g hg a v w
        have hn := T.comm
        rw [List.pairwise_append] at hn
        exact (hn.2.2 g hg f (by simp) a w v).symm
      have hff : ∀ b, fill ((k, v) :: ms) b f = f.2 b v := by
        intro b
        unfold fill pick
        simp only [List.find?_cons, he, Option.map_some]
      have hfn : ∀ b, fill ms b f = some b := by intro b; unfold fill; rw [hnone]
      rw [List.foldlM_append]
      simp only [List.foldlM_cons, hff]
      rw [hfold l (fun g hg => List.mem_append_left _ hg)]
      have := fill_commute ms f.2 v l a hcomm
      have e2 : members (l ++ f :: r) a ((k, v) :: ms) =
          (f.2 a v).bind fun b => (l.foldlM (fill ms) b).bind fun c => r.foldlM (fill ms) c := by
        simp only [members, hl]
        cases f.2 a v with
        | none => rfl
        | some b =>
          show members _ b ms = _
          rw [ih b honce, List.foldlM_append]
          simp only [List.foldlM_cons, hfn]
          rfl
      rw [e2, ← Option.bind_assoc, this, Option.bind_assoc]
      show _ = Option.bind _ _
      congr 1
      funext b
      show _ = Option.bind _ _
      congr 1
      funext c
      exact (hfold r (fun g hg => List.mem_append_right _ hg) c).symm
    · have hne : ∀ f ∈ fs, equalFold f.1 k = false := by
        intro f hf
        rw [Bool.eq_false_iff]
        exact fun h => hk ⟨f, hf, h⟩
      simp only [members, lookup_none hne T.ascii]
      rw [ih a honce]
      have : ∀ (xs : List (Field α)), (∀ g ∈ xs, g ∈ fs) → ∀ b, xs.foldlM (fill ((k, v) :: ms)) b = xs.foldlM (fill ms) b := by
        intro xs
        induction xs with
        | nil => intro _ b; rfl
        | cons g xs ihx =>
          intro hx b
          rw [List.foldlM_cons, List.foldlM_cons]
          have : fill ((k, v) :: ms) b g = fill ms b g := by
            unfold fill pick
            simp only [List.find?_cons, hne g (hx g (by simp))]
          rw [this]
          congr 1
          funext c
          exact ihx (fun g hg => hx g (by simp [hg])) c
      exact (this fs (fun _ h => h) a).symm

/-- A table, by its names. -/
theorem Table.of {α : Type} {fs : List (Field α)} (names : List Bytes) (h : fs.map (·.1) = names) (h1 : ∀ n ∈ names, Ascii n)
    (h2 : names.Pairwise fun a b => a.map lower ≠ b.map lower) (h3 : fs.Pairwise fun f g => Commute f.2 g.2) : Table fs := by
  subst h
  refine ⟨fun f hf => h1 _ (List.mem_map_of_mem hf), ?_, h3⟩
  rwa [List.pairwise_map] at h2

macro "fields_commute" : tactic => `(tactic| (
  simp only [List.pairwise_cons, List.mem_cons, forall_eq_or_imp, List.not_mem_nil, false_implies, implies_true, and_true,
    List.Pairwise.nil, forall_eq, or_false]
  repeat' apply And.intro
  all_goals exact commute_lens (fun _ _ => rfl) (fun _ _ => rfl) (fun _ _ _ => rfl)))

theorem lacks_pick {ms : List (Bytes × Json)} {k : Bytes} (h : Lacks ms k) {f : Bytes} (hf : Ascii f) (hk : f.map lower = k.map lower) :
    pick ms f = none ∧ Once ms f := by
  have key : ∀ m ∈ ms, ¬ equalFold f m.1 = true := by
    intro m hm he
    exact h m hm (alike_of_lower ((alike_iff _ _ hf).1 he) hk.symm)
  refine ⟨?_, ?_⟩
  · unfold pick
    rw [Option.map_eq_none_iff, List.find?_eq_none]
    exact key
  · unfold Once
    rw [List.filter_eq_nil_iff.2 key]
    exact Nat.zero_le _

theorem has_pick {ms : List (Bytes × Json)} {k : Bytes} {P : Json → Prop} (h : Has ms k P) {f : Bytes} (hf : Ascii f)
    (hk : f.map lower = k.map lower) : ∃ v, pick ms f = some v ∧ Once ms f ∧ P v := by
  obtain ⟨pre, v, post, rfl, h1, h2, hP⟩ := h
  obtain ⟨a1, a2⟩ := lacks_pick h1 hf hk
  obtain ⟨b1, b2⟩ := lacks_pick h2 hf hk
  have he : equalFold f k = true := (alike_iff _ _ hf).2 (alike_of_lower (alike_refl k) hk)
  refine ⟨v, ?_, ?_, hP⟩
  · unfold pick at a1 ⊢
    rw [Option.map_eq_none_iff] at a1
    rw [List.find?_append, a1]
    simp [he]
  · unfold pick at a1 b1
    rw [Option.map_eq_none_iff, List.find?_eq_none] at a1 b1
    unfold Once
    rw [List.filter_append, List.filter_cons, if_pos he, List.filter_eq_nil_iff.2 a1, List.filter_eq_nil_iff.2 b1]
    exact Nat.le_refl _

theorem may_pick {ms : List (Bytes × Json)} {k : Bytes} {P : Json → Prop} (h : May ms k P) {f : Bytes} (hf : Ascii f)
    (hk : f.map lower = k.map lower) : Once ms f ∧ (pick ms f = none ∨ ∃ v, pick ms f = some v ∧ (v = .null ∨ P v)) := by
  rcases h with h | h
  · obtain ⟨a, b⟩ := lacks_pick h hf hk
    exact ⟨b, .inl a⟩
  · obtain ⟨v, a, b, c⟩ := has_pick h hf hk
    exact ⟨b, .inr ⟨v, a, c⟩⟩

/-! ## Values -/

theorem decimal_parse {bits n : Nat} {s : Bytes} (hb : bits ≤ 64) (h : DecimalOf n s) (hn : n < 2 ^ bits) : parseUintBase 10 bits s = some n := by
  obtain ⟨ds, h1, h2, h3, -⟩ := h
  rw [parseUintBase_iff 10 bits (by decide) (by decide) hb]
  exact ⟨h3, ds, h1, h2.symm, hn⟩

theorem decimal_head {n : Nat} {s : Bytes} (h : DecimalOf n s) : ∃ c t, s = c :: t ∧ c ≠ 43 ∧ c ≠ 45 := by
  obtain ⟨ds, ⟨h1, -⟩, -, h3, -⟩ := h
  cases s with
  | nil => exact (h3 rfl).elim
  | cons c t =>
    refine ⟨c, t, rfl, ?_⟩
    cases ds with
    | nil => simp at h1
    | cons d ds =>
      simp only [List.map_cons, List.cons.injEq] at h1
      constructor
      · rintro rfl; exact absurd h1.1 (by rw [show digitValue 43 = none by decide]; simp)
      · rintro rfl; exact absurd h1.1 (by rw [show digitValue 45 = none by decide]; simp)

theorem int_reads {i : Int} {j : Json} (h : IsInt i j) (old : Int) : int old j = some i := by
  obtain ⟨s, rfl, h, h1, h2⟩ := h
  rcases h with ⟨n, rfl, h⟩ | ⟨n, t, rfl, h, rfl⟩
  · obtain ⟨c, t, rfl, c1, c2⟩ := decimal_head h
    show parseIntBase 10 64 (c :: t) = _
    simp only [parseIntBase, c1, c2, or_self, if_false]
    rw [decimal_parse (Nat.le_refl 64) h (by omega)]
    simp only [decide_false, Bool.false_eq_true, not_false_eq_true, true_and, false_and, if_false]
    rw [if_neg (by show ¬ n ≥ 2 ^ 63; omega)]
  · show parseIntBase 10 64 (45 :: t) = _
    simp only [parseIntBase]
    rw [if_pos (.inr trivial), decimal_parse (Nat.le_refl 64) h (by omega)]
    simp only [decide_true, not_true_eq_false, false_and, if_false, true_and]
    rw [if_neg (by show ¬ n > 2 ^ 63; omega), if_pos trivial]

theorem string_reads {s : Bytes} {j : Json} (h : IsStr s j) (old : Bytes) : string old j = some s := by rw [h]; rfl

macro "all_once" : tactic => `(tactic|
  simp only [List.mem_cons, forall_eq_or_imp, List.not_mem_nil, false_implies, implies_true, and_true, forall_eq, or_false])

theorem header_table (number : Bytes → Option Bytes) : Table (headerFields number) :=
  .of [b!"jsonrpc", b!"id", b!"method", b!"result", b!"error"] rfl (by decide) (by decide) (by unfold headerFields; fields_commute)

theorem position_table : Table positionFields :=
  .of [b!"line", b!"character"] rfl (by decide) (by decide) (by unfold positionFields; fields_commute)

theorem range_table : Table rangeFields :=
  .of [b!"start", b!"end"] rfl (by decide) (by decide) (by unfold rangeFields; fields_commute)

theorem document_table : Table documentFields :=
  .of [b!"uri"] rfl (by decide) (by decide) (by exact List.pairwise_singleton _ _)

theorem opened_table : Table openedFields :=
  .of [b!"uri", b!"version", b!"text"] rfl (by decide) (by decide) (by unfold openedFields; fields_commute)

theorem changed_table : Table changedFields :=
  .of [b!"uri", b!"version"] rfl (by decide) (by decide) (by unfold changedFields; fields_commute)

theorem change_table : Table changeFields :=
  .of [b!"text"] rfl (by decide) (by decide) (by exact List.pairwise_singleton _ _)

theorem didChange_table : Table didChangeFields :=
  .of [b!"textDocument", b!"contentChanges"] rfl (by decide) (by decide) (by unfold didChangeFields; fields_commute)

theorem documentPtr_table : Table documentPtrFields :=
  .of [b!"textDocument"] rfl (by decide) (by decide) (by exact List.pairwise_singleton _ _)

theorem documentOnly_table : Table documentOnlyFields :=
  .of [b!"textDocument"] rfl (by decide) (by decide) (by exact List.pairwise_singleton _ _)

theorem documentPos_table : Table documentPosFields :=
  .of [b!"textDocument", b!"position"] rfl (by decide) (by decide) (by unfold documentPosFields; fields_commute)

theorem prepareRename_table : Table prepareRenameFields :=
  .of [b!"textDocument", b!"Position"] rfl (by decide) (by decide) (by unfold prepareRenameFields; fields_commute)

theorem rename_table : Table renameFields :=
  .of [b!"textDocument", b!"Position", b!"newName"] rfl (by decide) (by decide) (by unfold renameFields; fields_commute)

theorem documentRange_table : Table documentRangeFields :=
  .of [b!"textDocument", b!"range"] rfl (by decide) (by decide) (by unfold documentRangeFields; fields_commute)

theorem diagnostic_table : Table diagnosticFields :=
  .of [b!"range", b!"severity", b!"message"] rfl (by decide) (by decide) (by unfold diagnosticFields; fields_commute)

theorem context_table : Table contextFields :=
  .of [b!"diagnostics", b!"only", b!"triggerKind"] rfl (by decide) (by decide) (by unfold contextFields; fields_commute)

theorem codeAction_table : Table codeActionFields :=
  .of [b!"textDocument", b!"range", b!"context"] rfl (by decide) (by decide) (by unfold codeActionFields; fields_commute)

theorem options_table : Table optionsFields :=
  .of [b!"semanticTokens", b!"inlayNamed", b!"inlayDecoded", b!"lensRefs"] rfl (by decide) (by decide) (by unfold optionsFields; fields_commute)

theorem clientInfo_table : Table clientInfoFields :=
  .of [b!"name", b!"version"] rfl (by decide) (by decide) (by unfold clientInfoFields; fields_commute)

theorem init_table : Table initFields :=
  .of [b!"id", b!"clientInfo", b!"initializationOptions"] rfl (by decide) (by decide) (by unfold initFields; fields_commute)

theorem command_table : Table commandFields :=
  .of [b!"command"] rfl (by decide) (by decide) (by exact List.pairwise_singleton _ _)

theorem updateVersion_table : Table updateVersionFields :=
  .of [b!"uri", b!"version"] rfl (by decide) (by decide) (by unfold updateVersionFields; fields_commute)

theorem replaceValue_table : Table replaceValueFields :=
  .of [b!"uri", b!"range", b!"name"] rfl (by decide) (by decide) (by unfold replaceValueFields; fields_commute)

theorem label_table : Table labelFields :=
  .of [b!"uri", b!"name"] rfl (by decide) (by decide) (by unfold labelFields; fields_commute)

theorem removeLine_table : Table removeLineFields :=
  .of [b!"uri", b!"line"] rfl (by decide) (by decide) (by unfold removeLineFields; fields_commute)

end Teal.WireSpec
