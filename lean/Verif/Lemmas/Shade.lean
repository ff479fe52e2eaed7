import Verif.Spec.Shade
import Verif.Props.Hover

/-! Which words the parse functions record as numbers, strings and keywords. -/

namespace Teal
open P Lsp.Spec Spec

/-- The highlighting of an argument. -/
def ArgType.shade (x : Bytes) : ArgType → Nat
  | .bytes => if x ∈ encodings then 0 else 1
  | .label => 1
  | .signature => 1
  | .addr => 1
  | .field r => if (r.table.specByName.get x).isSome then 1 else 6
  | _ => 6

/-- The highlighting of word `p` of a line (the opcode is word 0). -/
def Shape.shade (sh : Shape) (p : Nat) (x : Bytes) : Nat :=
  match sh.args[p - 1]? with
  | some a => a.type.shade x
  | none =>
    match sh.args.getLast? with
    | some ⟨.field _, _⟩ => 6
    | some a => a.type.shade x
    | none => 6

theorem Shape.shade_one {sh : Shape} {a : ArgInfo} (h : sh.args = [a]) (hf : ∀ r, a.type ≠ .field r) (p : Nat) (x : Bytes) :
    sh.shade p x = a.type.shade x := by
  unfold Shape.shade
  rw [h]
  cases hp : p - 1 with
  | zero => rfl
  | succ n =>
    obtain ⟨ty, ar⟩ := a
    cases ty with
    | field r => exact absurd rfl (hf r)
    | _ => rfl

/-- How the operands of an opcode are recorded: as what, and how often each. -/
structure Shading where
  ty : Nat → Bytes → Nat
  times : Nat

instance : CoeFun Shading (fun _ => Nat → Bytes → Nat) := ⟨Shading.ty⟩

/-- Each operand is recorded once. -/
class Once (σ : Shading) : Prop where
  eq : σ.times = 1

/-- The numbers of `intcblock` and `pushints` are recorded twice. -/
def Shape.times : Shape → Nat
  | .intcblock => 2
  | .pushints => 2
  | _ => 1

def Shape.shading (sh : Shape) : Shading := ⟨sh.shade, sh.times⟩

/-- All operands recorded. -/
def LineCtx.recs (c : LineCtx) : List Token := c.nums ++ c.strs ++ c.keys ++ c.refs

/-- All operands recorded are recorded `n` times. -/
def LineCtx.Times (n : Nat) (c : LineCtx) : Prop := ∀ t ∈ c.recs, c.recs.count t = n

/-- What a line has recorded, with its highlighting. -/
def LineCtx.Mark (c : LineCtx) (t : Token) (ty : Nat) : Prop :=
  (t ∈ c.nums ∧ ty = 6) ∨ (t ∈ c.strs ∧ ty = 1) ∨ (t ∈ c.keys ∧ ty = 0) ∨ (t ∈ c.refs ∧ ty = 1)

/-- The words before word `j` are recorded as they are to be. -/
def LineCtx.Upto (σ : Nat → Bytes → Nat) (j : Nat) (c : LineCtx) : Prop :=
  ∀ t ty, c.Mark t ty ↔ ∃ p : Nat, 1 ≤ p ∧ p < j ∧ c.ts[p]? = some t ∧ ty = σ p t.v

/-- All that is recorded is recorded as it is to be. -/
def LineCtx.Sound (σ : Shading) (c : LineCtx) : Prop :=
  (∀ t ty, c.Mark t ty → ∃ p : Nat, 1 ≤ p ∧ c.ts[p]? = some t ∧ ty = σ p t.v) ∧ c.Times σ.times

/-- All words behind us are recorded. -/
structure Clean (σ : Shading) (c : LineCtx) : Prop where
  mid : Mid c
  upto : c.Upto σ c.i
  nodup : c.ts.Nodup
  times : c.Times σ.times

/-- All words behind us but the last. -/
structure Fresh (σ : Shading) (c : LineCtx) : Prop where
  two : 2 ≤ c.i
  tok : AtTok c
  upto : c.Upto σ (c.i - 1)
  nodup : c.ts.Nodup
  times : c.Times σ.times

theorem LineCtx.Upto.sound {σ : Shading} {j : Nat} {c : LineCtx} (h : c.Upto σ j) (hc : c.Times σ.times) : c.Sound σ := by
  refine ⟨fun t ty ht => ?_, hc⟩
  obtain ⟨p, h1, -, h2, h3⟩ := (h t ty).1 ht
  exact ⟨p, h1, h2, h3⟩

theorem Clean.sound {σ : Shading} {c : LineCtx} (h : Clean σ c) : c.Sound σ := h.upto.sound h.times
theorem Fresh.sound {σ : Shading} {c : LineCtx} (h : Fresh σ c) : c.Sound σ := h.upto.sound h.times

theorem LineCtx.mem_recs {c : LineCtx} {t : Token} : t ∈ c.recs ↔ ∃ ty, c.Mark t ty := by
  unfold LineCtx.recs LineCtx.Mark
  simp only [List.mem_append]
  constructor
  · rintro (((h | h) | h) | h)
    · exact ⟨6, .inl ⟨h, rfl⟩⟩
    · exact ⟨1, .inr (.inl ⟨h, rfl⟩)⟩
    · exact ⟨0, .inr (.inr (.inl ⟨h, rfl⟩))⟩
    · exact ⟨1, .inr (.inr (.inr ⟨h, rfl⟩))⟩
  · rintro ⟨ty, h | h | h | h⟩
    · exact .inl (.inl (.inl h.1))
    · exact .inl (.inl (.inr h.1))
    · exact .inl (.inr h.1)
    · exact .inr h.1

/-- The outcome of a parse function with respect to what is recorded. -/
def OutMarks {α : Type} (σ : Shading) (c : LineCtx) (post : α → LineCtx → Prop) : Out α → Prop
  | .ok a d => post a d ∧ d.mcrs = c.mcrs
  | .fail d => d.Sound σ ∧ d.mcrs = c.mcrs ∧ ∃ x ∈ d.diag, ∃ w, x.kind = .parse w
  | .crash => True

/-- A parse function with respect to what it records. -/
def Marks {α : Type} (σ : Shading) (pre : LineCtx → Prop) (m : P α) (post : α → LineCtx → Prop) : Prop :=
  ∀ c, pre c → OutMarks σ c post (m c)

theorem Marks.bind {α β : Type} {σ : Shading} {pre : LineCtx → Prop} {m : P α} {mid : α → LineCtx → Prop}
    {f : α → P β} {post : β → LineCtx → Prop} (h1 : Marks σ pre m mid) (h2 : ∀ a, Marks σ (mid a) (f a) post) :
    Marks σ pre (m >>= f) post := by
  intro c hc
  have h := h1 c hc
  rw [P.bind_apply]
  cases hm : m c with
  | ok a d =>
    rw [hm] at h
    have h3 := h2 a d h.1
    dsimp only
    cases hf : f a d with
    | ok b e => rw [hf] at h3; exact ⟨h3.1, h3.2.trans h.2⟩
    | fail e => rw [hf] at h3; exact ⟨h3.1, h3.2.1.trans h.2, h3.2.2⟩
    | crash => trivial
  | fail d => rw [hm] at h; exact h
  | crash => trivial

theorem Marks.weaken {α : Type} {σ : Shading} {pre pre' : LineCtx → Prop} {m : P α} {post post' : α → LineCtx → Prop}
    (h : Marks σ pre m post) (h1 : ∀ c, pre' c → pre c) (h2 : ∀ a c, post a c → post' a c) : Marks σ pre' m post' := by
  intro c hc
  have := h c (h1 c hc)
  cases hm : m c with
  | ok a d => rw [hm] at this; exact ⟨h2 a d this.1, this.2⟩
  | fail d => rw [hm] at this; exact this
  | crash => trivial

theorem marks_pure {α : Type} {σ : Shading} {pre : LineCtx → Prop} (a : α) :
    Marks σ pre (Pure.pure a : P α) fun b c => b = a ∧ pre c := fun _ hc => ⟨⟨rfl, hc⟩, rfl⟩

theorem marks_failToken {α : Type} {σ : Shading} {pre : LineCtx → Prop} {post : α → LineCtx → Prop}
    (f : LineCtx → Token) (why : ParseWhy) (h : ∀ c, pre c → c.Sound σ) : Marks σ pre (P.failToken f why) post := by
  intro c hc
  exact ⟨h c hc, rfl, _, List.mem_append_right _ (List.mem_singleton.2 rfl), why, rfl⟩

/-- Recording the word we are at. -/
theorem fresh_mark {σ : Shading} {c d : LineCtx} (h : Fresh σ c) (ty : Nat) (hs : σ (c.i - 1) c.text = ty)
    (hts : d.ts = c.ts) (hi : d.i = c.i) (hm : ∀ t y, d.Mark t y ↔ c.Mark t y ∨ (t = c.curr ∧ y = ty))
    (hn : ∀ t, d.recs.count t = c.recs.count t + if t = c.curr then σ.times else 0) : Clean σ d := by
  have h2 := h.two
  have hb := h.tok.bound
  refine ⟨⟨by rw [hi]; omega, by rw [hi, hts]; exact hb, hts ▸ h.tok.ne, hts ▸ h.tok.text⟩, ?_, hts ▸ h.nodup, ?_⟩
  case refine_2 =>
    intro t ht
    rw [hn]
    by_cases htc : t = c.curr
    · rw [if_pos htc]
      have : t ∉ c.recs := by
        intro hr
        obtain ⟨y, hy⟩ := LineCtx.mem_recs.1 hr
        obtain ⟨p, h3, h4, h5, -⟩ := (h.upto t y).1 hy
        have h6 := h.tok.curr_eq
        rw [← htc] at h6
        have := (List.getElem?_inj (List.getElem?_eq_some_iff.1 h5).1 h.nodup).1 (h5.trans h6.symm)
        omega
      rw [List.count_eq_zero.2 this, Nat.zero_add]
    · have h3 : 0 < d.recs.count t := List.count_pos_iff.2 ht
      rw [hn, if_neg htc, Nat.add_zero] at h3
      rw [if_neg htc, Nat.add_zero]
      exact h.times t (List.count_pos_iff.1 h3)
  intro t y
  rw [hm, h.upto, hi, hts]
  constructor
  · rintro (⟨p, h3, h4, h5⟩ | ⟨rfl, rfl⟩)
    · exact ⟨p, h3, by omega, h5⟩
    · exact ⟨c.i - 1, by omega, by omega, h.tok.curr_eq, hs.symm⟩
  · rintro ⟨p, h3, h4, h5, h6⟩
    by_cases hp : p = c.i - 1
    · right
      subst hp
      rw [h.tok.curr_eq] at h5
      injection h5 with h5
      subst h5
      exact ⟨rfl, h6.trans hs⟩
    · exact .inl ⟨p, h3, by omega, h5, h6⟩

/-- Reaching the next word. -/
theorem clean_scan {σ : Shading} {c : LineCtx} (h : Clean σ c) :
    (∃ d, P.scan c = .ok true d ∧ Fresh σ d ∧ d.i = c.i + 1 ∧ d.mcrs = c.mcrs) ∨
    (∃ d, P.scan c = .ok false d ∧ Clean σ d ∧ c.ts.length ≤ c.i ∧ d.ts.length ≤ d.i ∧ d.mcrs = c.mcrs ∧ 2 ≤ d.i) := by
  have hone := h.mid.one
  rcases scan_left c h.mid with ⟨d, w, h1, h2, h3, h4, rfl⟩ | ⟨d, h1, h2, h3, h4, h5, h6⟩
  · left
    exact ⟨_, h1, ⟨by show 2 ≤ c.i + 1; omega, h2, h.upto, h.nodup, h.times⟩, rfl, rfl⟩
  · right
    have hl : c.ts.length ≤ c.i := by
      unfold LineCtx.left at h3
      rw [List.map_eq_nil_iff, List.drop_eq_nil_iff] at h3
      exact h3
    rcases h6 with rfl | rfl
    · refine ⟨_, h1, ⟨h2, ?_, h.nodup, h.times⟩, hl, by show c.ts.length ≤ c.i + 1; omega, rfl, h5⟩
      intro t y
      show c.Mark t y ↔ _
      rw [h.upto]
      constructor
      · rintro ⟨p, a, b, e⟩; exact ⟨p, a, by show p < c.i + 1; omega, e⟩
      · rintro ⟨p, a, b, e, f⟩
        have := (List.getElem?_eq_some_iff.1 e).1
        have hlt : p < c.ts.length := this
        exact ⟨p, a, by omega, e, f⟩
    · exact ⟨_, h1, ⟨h2, h.upto, h.nodup, h.times⟩, hl, hl, rfl, h5⟩

/-- Word `p` comes next. -/
def Next (σ : Shading) (p : Nat) (c : LineCtx) : Prop := Clean σ c ∧ c.i = p

/-- We are at word `p`. -/
def AtWord (σ : Shading) (p : Nat) (c : LineCtx) : Prop := Fresh σ c ∧ c.i = p + 1

theorem marks_mustReadArg (σ : Shading) (p : Nat) : Marks σ (Next σ p) P.mustReadArg fun _ => AtWord σ p := by
  rintro c ⟨hc, rfl⟩
  unfold P.mustReadArg
  rw [P.bind_apply]
  rcases clean_scan hc with ⟨d, h1, h2, h3, h4⟩ | ⟨d, h1, h2, h3, h4, h5, -⟩
  · rw [h1]; exact ⟨⟨h2, h3⟩, h4⟩
  · rw [h1]
    exact ⟨h2.sound, h5, _, List.mem_append_right _ (List.mem_singleton.2 rfl), _, rfl⟩

theorem count_nums (c : LineCtx) (t : Token) :
    ({ c with nums := c.nums ++ [c.curr] } : LineCtx).recs.count t = c.recs.count t + if t = c.curr then 1 else 0 := by
  show List.count t ((c.nums ++ [c.curr]) ++ c.strs ++ c.keys ++ c.refs) = List.count t (c.nums ++ c.strs ++ c.keys ++ c.refs) + _
  simp only [List.count_append, List.count_singleton, beq_iff_eq]
  by_cases h : t = c.curr
  · rw [if_pos h, if_pos h.symm]; omega
  · rw [if_neg h, if_neg (Ne.symm h)]; omega

theorem count_strs (c : LineCtx) (t : Token) :
    ({ c with strs := c.strs ++ [c.curr] } : LineCtx).recs.count t = c.recs.count t + if t = c.curr then 1 else 0 := by
  show List.count t (c.nums ++ (c.strs ++ [c.curr]) ++ c.keys ++ c.refs) = List.count t (c.nums ++ c.strs ++ c.keys ++ c.refs) + _
  simp only [List.count_append, List.count_singleton, beq_iff_eq]
  by_cases h : t = c.curr
  · rw [if_pos h, if_pos h.symm]; omega
  · rw [if_neg h, if_neg (Ne.symm h)]; omega

theorem count_keys (c : LineCtx) (t : Token) :
    ({ c with keys := c.keys ++ [c.curr] } : LineCtx).recs.count t = c.recs.count t + if t = c.curr then 1 else 0 := by
  show List.count t (c.nums ++ c.strs ++ (c.keys ++ [c.curr]) ++ c.refs) = List.count t (c.nums ++ c.strs ++ c.keys ++ c.refs) + _
  simp only [List.count_append, List.count_singleton, beq_iff_eq]
  by_cases h : t = c.curr
  · rw [if_pos h, if_pos h.symm]; omega
  · rw [if_neg h, if_neg (Ne.symm h)]; omega

theorem count_refs (c : LineCtx) (t : Token) :
    ({ c with refs := c.refs ++ [c.curr] } : LineCtx).recs.count t = c.recs.count t + if t = c.curr then 1 else 0 := by
  show List.count t (c.nums ++ c.strs ++ c.keys ++ (c.refs ++ [c.curr])) = List.count t (c.nums ++ c.strs ++ c.keys ++ c.refs) + _
  simp only [List.count_append, List.count_singleton, beq_iff_eq]
  by_cases h : t = c.curr
  · rw [if_pos h, if_pos h.symm]; omega
  · rw [if_neg h, if_neg (Ne.symm h)]; omega

/-- Recording a number. -/
theorem marks_addNum {σ : Shading} [Once σ] {p : Nat} : Marks σ (fun c => AtWord σ p c ∧ σ p c.text = 6) P.addNum fun _ => Next σ (p + 1) := by
  rintro c ⟨⟨hc, hi⟩, hs⟩
  refine ⟨⟨fresh_mark hc 6 (by rw [hi, Nat.add_sub_cancel]; exact hs) rfl rfl ?_ (fun t => by rw [Once.eq]; exact count_nums c t), hi⟩, rfl⟩
  intro t y
  simp only [LineCtx.Mark, List.mem_append, List.mem_singleton]
  constructor
  · rintro (⟨h | h, h'⟩ | h | h | h)
    · exact .inl (.inl ⟨h, h'⟩)
    · exact .inr ⟨h, h'⟩
    · exact .inl (.inr (.inl h))
    · exact .inl (.inr (.inr (.inl h)))
    · exact .inl (.inr (.inr (.inr h)))
  · rintro ((h | h | h | h) | h)
    · exact .inl ⟨.inl h.1, h.2⟩
    · exact .inr (.inl h)
    · exact .inr (.inr (.inl h))
    · exact .inr (.inr (.inr h))
    · exact .inl ⟨.inr h.1, h.2⟩

/-- Recording it twice. -/
theorem marks_addNum_twice {σ : Shading} {p : Nat} (h2 : σ.times = 2) :
    Marks σ (fun c => AtWord σ p c ∧ σ p c.text = 6) (P.addNum >>= fun _ => P.addNum) fun _ => Next σ (p + 1) := by
  rintro c ⟨⟨hc, hi⟩, hs⟩
  refine ⟨⟨fresh_mark hc 6 (by rw [hi, Nat.add_sub_cancel]; exact hs) rfl rfl ?_ (fun t => ?_), hi⟩, rfl⟩
  · intro t y
    show (((t ∈ (c.nums ++ [c.curr]) ++ [c.curr]) ∧ y = 6) ∨ _) ↔ _
    simp only [LineCtx.Mark, List.mem_append, List.mem_singleton]
    constructor
    · rintro (⟨(h | h) | h, h'⟩ | h | h | h)
      · exact .inl (.inl ⟨h, h'⟩)
      · exact .inr ⟨h, h'⟩
      · exact .inr ⟨h, h'⟩
      · exact .inl (.inr (.inl h))
      · exact .inl (.inr (.inr (.inl h)))
      · exact .inl (.inr (.inr (.inr h)))
    · rintro ((h | h | h | h) | h)
      · exact .inl ⟨.inl (.inl h.1), h.2⟩
      · exact .inr (.inl h)
      · exact .inr (.inr (.inl h))
      · exact .inr (.inr (.inr h))
      · exact .inl ⟨.inr h.1, h.2⟩
  · rw [h2]
    show List.count t ((((c.nums ++ [c.curr]) ++ [c.curr]) ++ c.strs) ++ c.keys ++ c.refs) = List.count t (((c.nums ++ c.strs) ++ c.keys) ++ c.refs) + _
    simp only [List.count_append, List.count_singleton, beq_iff_eq]
    by_cases h : t = c.curr
    · rw [if_pos h, if_pos h.symm]; omega
    · rw [if_neg h, if_neg (Ne.symm h)]; omega

theorem marks_addStr {σ : Shading} [Once σ] {p : Nat} : Marks σ (fun c => AtWord σ p c ∧ σ p c.text = 1) P.addStr fun _ => Next σ (p + 1) := by
  rintro c ⟨⟨hc, hi⟩, hs⟩
  refine ⟨⟨fresh_mark hc 1 (by rw [hi, Nat.add_sub_cancel]; exact hs) rfl rfl ?_ (fun t => by rw [Once.eq]; exact count_strs c t), hi⟩, rfl⟩
  intro t y
  simp only [LineCtx.Mark, List.mem_append, List.mem_singleton]
  constructor
  · rintro (h | ⟨h | h, h'⟩ | h | h)
    · exact .inl (.inl h)
    · exact .inl (.inr (.inl ⟨h, h'⟩))
    · exact .inr ⟨h, h'⟩
    · exact .inl (.inr (.inr (.inl h)))
    · exact .inl (.inr (.inr (.inr h)))
  · rintro ((h | h | h | h) | h)
    · exact .inl h
    · exact .inr (.inl ⟨.inl h.1, h.2⟩)
    · exact .inr (.inr (.inl h))
    · exact .inr (.inr (.inr h))
    · exact .inr (.inl ⟨.inr h.1, h.2⟩)

theorem marks_addKey {σ : Shading} [Once σ] {p : Nat} : Marks σ (fun c => AtWord σ p c ∧ σ p c.text = 0) P.addKey fun _ => Next σ (p + 1) := by
  rintro c ⟨⟨hc, hi⟩, hs⟩
  refine ⟨⟨fresh_mark hc 0 (by rw [hi, Nat.add_sub_cancel]; exact hs) rfl rfl ?_ (fun t => by rw [Once.eq]; exact count_keys c t), hi⟩, rfl⟩
  intro t y
  simp only [LineCtx.Mark, List.mem_append, List.mem_singleton]
  constructor
  · rintro (h | h | ⟨h | h, h'⟩ | h)
    · exact .inl (.inl h)
    · exact .inl (.inr (.inl h))
    · exact .inl (.inr (.inr (.inl ⟨h, h'⟩)))
    · exact .inr ⟨h, h'⟩
    · exact .inl (.inr (.inr (.inr h)))
  · rintro ((h | h | h | h) | h)
    · exact .inl h
    · exact .inr (.inl h)
    · exact .inr (.inr (.inl ⟨.inl h.1, h.2⟩))
    · exact .inr (.inr (.inr h))
    · exact .inr (.inr (.inl ⟨.inr h.1, h.2⟩))

theorem marks_addRef {σ : Shading} [Once σ] {p : Nat} : Marks σ (fun c => AtWord σ p c ∧ σ p c.text = 1) P.addRef fun _ => Next σ (p + 1) := by
  rintro c ⟨⟨hc, hi⟩, hs⟩
  refine ⟨⟨fresh_mark hc 1 (by rw [hi, Nat.add_sub_cancel]; exact hs) rfl rfl ?_ (fun t => by rw [Once.eq]; exact count_refs c t), hi⟩, rfl⟩
  intro t y
  simp only [LineCtx.Mark, List.mem_append, List.mem_singleton]
  constructor
  · rintro (h | h | h | ⟨h | h, h'⟩)
    · exact .inl (.inl h)
    · exact .inl (.inr (.inl h))
    · exact .inl (.inr (.inr (.inl h)))
    · exact .inl (.inr (.inr (.inr ⟨h, h'⟩)))
    · exact .inr ⟨h, h'⟩
  · rintro ((h | h | h | h) | h)
    · exact .inl h
    · exact .inr (.inl h)
    · exact .inr (.inr (.inl h))
    · exact .inr (.inr (.inr ⟨.inl h.1, h.2⟩))
    · exact .inr (.inr (.inr ⟨.inr h.1, h.2⟩))

theorem AtWord.sound {σ : Shading} {p : Nat} {c : LineCtx} (h : AtWord σ p c) : c.Sound σ := h.1.sound

/-- A number. -/
theorem marks_num {α : Type} {σ : Shading} [Once σ] {p : Nat} (r : Bytes → Option α) (why : ParseWhy)
    (hs : ∀ x, (r x).isSome → σ p x = 6) :
    Marks σ (AtWord σ p) (do
      let v ← P.orFail (r (← P.text)) why
      P.addNum
      Pure.pure v) fun _ => Next σ (p + 1) := by
  intro c hc
  simp only [P.bind_apply, P.text]
  unfold P.orFail
  cases hr : r c.text with
  | none => exact ⟨hc.sound, rfl, _, List.mem_append_right _ (List.mem_singleton.2 rfl), _, rfl⟩
  | some a => exact marks_addNum c ⟨hc, hs _ (by rw [hr]; rfl)⟩

theorem marks_must_num {α : Type} {σ : Shading} [Once σ] {p : Nat} (r : Bytes → Option α) (why : ParseWhy)
    (hs : ∀ x, (r x).isSome → σ p x = 6) :
    Marks σ (Next σ p) (P.mustReadArg >>= fun _ => (do
      let v ← P.orFail (r (← P.text)) why
      P.addNum
      Pure.pure v)) fun _ => Next σ (p + 1) := (marks_mustReadArg σ p).bind fun _ => marks_num r why hs

theorem marks_uint8 {σ : Shading} [Once σ] {p : Nat} (hs : ∀ x, σ p x = 6) :
    Marks σ (Next σ p) P.mustReadUint8 fun _ => Next σ (p + 1) := marks_must_num readUint8 _ fun x _ => hs x
theorem marks_uint64 {σ : Shading} [Once σ] {p : Nat} (hs : ∀ x, σ p x = 6) :
    Marks σ (Next σ p) P.mustReadInt fun _ => Next σ (p + 1) := marks_must_num readInt _ fun x _ => hs x
theorem marks_const {σ : Shading} [Once σ] {p : Nat} (hs : ∀ x, σ p x = 6) :
    Marks σ (Next σ p) P.mustReadConstInt fun _ => Next σ (p + 1) := marks_must_num readConstInt _ fun x _ => hs x
theorem marks_int8 {σ : Shading} [Once σ] {p : Nat} (hs : ∀ x, σ p x = 6) :
    Marks σ (Next σ p) P.mustReadInt8 fun _ => Next σ (p + 1) := marks_must_num readInt8 _ fun x _ => hs x

/-- There are no more words, and all are recorded. -/
def AtEnd (σ : Shading) (c : LineCtx) : Prop := Clean σ c ∧ c.ts.length ≤ c.i

theorem marks_maybe {σ : Shading} [Once σ] {p : Nat} (hs : ∀ x, σ p x = 6) :
    Marks σ (Next σ p) P.maybeReadUint8 fun a c => (a.isSome ∧ Next σ (p + 1) c) ∨ (a = none ∧ AtEnd σ c) := by
  rintro c ⟨hc, rfl⟩
  unfold P.maybeReadUint8
  rw [P.bind_apply]
  rcases clean_scan hc with ⟨d, h1, h2, h3, h4⟩ | ⟨d, h1, h2, h3, h4, h5, -⟩
  · rw [h1]
    dsimp only
    rw [if_pos rfl]
    have h6 := marks_num (σ := σ) (p := c.i) readUint8 .badUint8 (fun x _ => hs x) d ⟨h2, h3⟩
    rw [P.bind_apply]
    change OutMarks σ d _ (P.parseUint8 d) at h6
    cases hm : P.parseUint8 d with
    | ok a e => rw [hm] at h6; exact ⟨.inl ⟨rfl, h6.1⟩, h6.2.trans h4⟩
    | fail e => rw [hm] at h6; exact ⟨h6.1, h6.2.1.trans h4, h6.2.2⟩
    | crash => trivial
  · rw [h1]
    exact ⟨.inr ⟨rfl, h2, h4⟩, h5⟩

theorem ite3 {α : Type} {p q r : Prop} [Decidable p] [Decidable q] [Decidable r] {a f : α}
    (h : (if p then none else if q then none else if r then none else some a) = some f) : f = a := by
  by_cases h1 : p
  · rw [if_pos h1] at h; cases h
  · rw [if_neg h1] at h
    by_cases h2 : q
    · rw [if_pos h2] at h; cases h
    · rw [if_neg h2] at h
      by_cases h3 : r
      · rw [if_pos h3] at h; cases h
      · rw [if_neg h3] at h; injection h with h; exact h.symm

theorem readFieldWith_isconst {r : FieldReader} {v : Nat} {s : Bytes} {f : FieldRead} (h : P.readFieldWith r v s = some f) :
    f.isconst = (r.table.specByName.get s).isSome := by
  cases r with
  | group g =>
    change readField g v s = some f at h
    unfold readField at h
    change _ = (g.specByName.get s).isSome
    cases hg : g.specByName.get s with
    | none =>
      rw [hg] at h
      obtain ⟨n, -, rfl⟩ := Option.map_eq_some_iff.1 h
      rfl
    | some spec =>
      rw [hg] at h
      dsimp only at h
      split at h
      · cases h
      · injection h with h; subst h; rfl
  | txn c =>
    change readTxnField c v s = some f at h
    unfold readTxnField at h
    change _ = (FieldGroup.txn.specByName.get s).isSome
    cases hg : FieldGroup.txn.specByName.get s with
    | none =>
      rw [hg] at h
      obtain ⟨n, -, rfl⟩ := Option.map_eq_some_iff.1 h
      rfl
    | some spec =>
      rw [hg] at h
      dsimp only at h
      rw [ite3 h]
      rfl

theorem marks_field {σ : Shading} [Once σ] {p : Nat} (r : FieldReader)
    (hs : ∀ x, σ p x = (ArgType.field r).shade x) : Marks σ (Next σ p) (P.mustReadField r) fun _ => Next σ (p + 1) := by
  refine (marks_mustReadArg σ p).bind fun _ => ?_
  intro c hc
  simp only [P.bind_apply, P.text, P.version]
  unfold P.orFail
  cases hr : P.readFieldWith r c.version c.text with
  | none => exact ⟨hc.sound, rfl, _, List.mem_append_right _ (List.mem_singleton.2 rfl), _, rfl⟩
  | some f =>
    have h1 := readFieldWith_isconst hr
    have h2 := hs c.text
    unfold ArgType.shade at h2
    dsimp only at h2
    rw [← h1] at h2
    simp only [P.pure_apply]
    cases hf : f.isconst
    · rw [hf] at h2
      exact marks_addNum c ⟨hc, h2⟩
    · rw [hf] at h2
      exact marks_addStr c ⟨hc, h2⟩

theorem marks_label {σ : Shading} [Once σ] {p : Nat} (hs : ∀ x, σ p x = 1) :
    Marks σ (Next σ p) P.mustReadLabel fun _ => Next σ (p + 1) :=
  (marks_mustReadArg σ p).bind fun _ => by
    intro c hc
    exact marks_addRef c ⟨hc, hs _⟩

theorem marks_addr {σ : Shading} [Once σ] {p : Nat} (addrOk : Bytes → Bool) (hs : ∀ x, σ p x = 1) :
    Marks σ (Next σ p) (P.mustReadAddr addrOk) fun _ => Next σ (p + 1) := by
  unfold P.mustReadAddr P.mustRead
  refine Marks.bind (mid := fun _ => AtWord σ p) ((marks_mustReadArg σ p).bind fun _ => fun c hc => ⟨hc, rfl⟩) fun v => ?_
  intro c hc
  simp only [P.bind_apply]
  cases addrOk v
  · exact ⟨hc.sound, rfl, _, List.mem_append_right _ (List.mem_singleton.2 rfl), _, rfl⟩
  · exact marks_addStr c ⟨hc, hs _⟩

theorem marks_signature {σ : Shading} [Once σ] {p : Nat} (hs : ∀ x, σ p x = 1) :
    Marks σ (Next σ p) P.mustReadSignature fun _ => Next σ (p + 1) := by
  refine (marks_mustReadArg σ p).bind fun _ => ?_
  intro c hc
  simp only [P.bind_apply, P.text]
  cases hh : c.text.head? with
  | none => trivial
  | some b =>
    cases hl : c.text.getLast? with
    | none => trivial
    | some e =>
      dsimp only
      by_cases h : b ≠ chQuote ∨ e ≠ chQuote
      · simp only [P.bind_apply, if_pos h]
        exact ⟨hc.sound, rfl, _, List.mem_append_right _ (List.mem_singleton.2 rfl), _, rfl⟩
      · simp only [P.bind_apply, if_neg h]
        exact marks_addStr c ⟨hc, hs _⟩

/-- `orFail`, `addStr`, `pure`. -/
theorem marks_str {σ : Shading} [Once σ] {p : Nat} {c : LineCtx} (hc : AtWord σ p c) (hs : σ p c.text = 1) (r : Option Bytes) :
    OutMarks σ c (fun _ => Next σ (p + 1)) ((do
      let val ← P.orFail r .badBytes
      P.addStr
      Pure.pure val : P Bytes) c) := by
  unfold P.orFail
  cases r with
  | none => exact ⟨hc.sound, rfl, _, List.mem_append_right _ (List.mem_singleton.2 rfl), _, rfl⟩
  | some a => exact marks_addStr c ⟨hc, hs⟩

theorem base32_encodings : ∀ x ∈ encodings, base32DecodeAnyPadding x = none := by decide +kernel
theorem base64_encodings : ∀ x ∈ encodings, b64Decode x = none := by decide +kernel


/-- A byte constant. -/
theorem marks_parseBytes {σ : Shading} [Once σ] {p : Nat} (hs : ∀ x, σ p x = ArgType.bytes.shade x)
    (hs' : ∀ x, σ (p + 1) x = ArgType.bytes.shade x) :
    Marks σ (AtWord σ p) P.parseBytes fun _ c => Next σ (p + 1) c ∨ Next σ (p + 2) c := by
  have hstr : ∀ {c : LineCtx} {q : Nat}, AtWord σ q c → σ q c.text = 1 → ∀ r : Option Bytes,
      OutMarks σ c (fun _ => Next σ (q + 1)) ((do
        let val ← P.orFail r .badBytes
        P.addStr
        Pure.pure val : P Bytes) c) := fun h1 h2 r => marks_str h1 h2 r
  have weak : ∀ {c : LineCtx} {o : Out Bytes}, OutMarks σ c (fun _ => Next σ (p + 1)) o →
      OutMarks σ c (fun _ c => Next σ (p + 1) c ∨ Next σ (p + 2) c) o := by
    intro c o h
    cases o with
    | ok a d => exact ⟨.inl h.1, h.2⟩
    | fail d => exact h
    | crash => trivial
  intro c hc
  have one : c.text ∉ encodings → σ p c.text = 1 := by
    intro h; rw [hs]; unfold ArgType.shade; rw [if_neg h]
  have zero : c.text ∈ encodings → σ p c.text = 0 := by
    intro h; rw [hs]; unfold ArgType.shade; rw [if_pos h]
  have key : ∀ (f : Bytes → Option Bytes), (∀ x ∈ encodings, f x = none) → c.text ∈ encodings →
      OutMarks σ c (fun _ c => Next σ (p + 1) c ∨ Next σ (p + 2) c) ((do
        P.addKey
        let l ← P.mustRead
        let val ← P.orFail (f l) .badBytes
        P.addStr
        Pure.pure val : P Bytes) c) := by
    intro f hf hx
    refine (Marks.bind (mid := fun _ => Next σ (p + 1)) (pre := fun c' => AtWord σ p c' ∧ σ p c'.text = 0) marks_addKey fun _ => ?_) c
      ⟨hc, zero hx⟩
    refine Marks.bind (mid := fun l c' => AtWord σ (p + 1) c' ∧ l = c'.text) ?_ fun l => ?_
    · unfold P.mustRead
      exact (marks_mustReadArg σ (p + 1)).bind fun _ => fun c' hc' => ⟨⟨hc', rfl⟩, rfl⟩
    · rintro c' ⟨hc', rfl⟩
      cases hr : f c'.text with
      | none => exact ⟨hc'.sound, rfl, _, List.mem_append_right _ (List.mem_singleton.2 rfl), _, rfl⟩
      | some v =>
        have h1 : σ (p + 1) c'.text = 1 := by
          rw [hs']; unfold ArgType.shade
          rw [if_neg (fun h => by rw [hf _ h] at hr; cases hr)]
        have := hstr hc' h1 (some v)
        cases ho : ((do
          let val ← P.orFail (some v) .badBytes
          P.addStr
          Pure.pure val : P Bytes) c') with
        | ok a d => rw [ho] at this; exact ⟨.inr this.1, this.2⟩
        | fail d => rw [ho] at this; exact this
        | crash => trivial
  unfold P.parseBytes
  rw [P.bind_apply]
  simp only [P.text]
  have henc : ∀ pre : Bytes, hasPrefix c.text pre = true → (∀ x ∈ encodings, hasPrefix x pre = false) → c.text ∉ encodings := by
    intro pre h1 h2 h3
    rw [h2 _ h3] at h1; cases h1
  by_cases c1 : (hasPrefix c.text b!"base32(" || hasPrefix c.text b!"b32(") = true
  · rw [if_pos c1]
    have hx : c.text ∉ encodings := by
      rcases Bool.or_eq_true _ _ ▸ c1 with h | h
      · exact henc _ h (by decide +kernel)
      · exact henc _ h (by decide +kernel)
    cases parenBody c.text with
    | none => exact ⟨hc.sound, rfl, _, List.mem_append_right _ (List.mem_singleton.2 rfl), _, rfl⟩
    | some b => exact weak (hstr hc (one hx) (base32DecodeAnyPadding b))
  rw [if_neg c1]
  by_cases c2 : (hasPrefix c.text b!"base64(" || hasPrefix c.text b!"b64(") = true
  · rw [if_pos c2]
    have hx : c.text ∉ encodings := by
      rcases Bool.or_eq_true _ _ ▸ c2 with h | h
      · exact henc _ h (by decide +kernel)
      · exact henc _ h (by decide +kernel)
    cases parenBody c.text with
    | none => exact ⟨hc.sound, rfl, _, List.mem_append_right _ (List.mem_singleton.2 rfl), _, rfl⟩
    | some b => exact weak (hstr hc (one hx) (b64Decode b))
  rw [if_neg c2]
  by_cases c3 : hasPrefix c.text b!"0x" = true
  · rw [if_pos c3]
    exact weak (hstr hc (one (henc _ c3 (by decide +kernel))) _)
  rw [if_neg c3]
  by_cases c4 : c.text = b!"base32" ∨ c.text = b!"b32"
  · rw [if_pos c4]
    exact key _ base32_encodings (by rcases c4 with h | h <;> rw [h] <;> decide +kernel)
  rw [if_neg c4]
  by_cases c5 : c.text = b!"base64" ∨ c.text = b!"b64"
  · rw [if_pos c5]
    exact key _ base64_encodings (by rcases c5 with h | h <;> rw [h] <;> decide +kernel)
  rw [if_neg c5]
  have hx : c.text ∉ encodings := by
    intro h
    simp only [encodings, List.mem_cons, List.not_mem_nil, or_false] at h
    rcases h with h | h | h | h
    · exact c4 (.inl h)
    · exact c4 (.inr h)
    · exact c5 (.inl h)
    · exact c5 (.inr h)
  by_cases c6 : c.text.length > 1 ∧ c.text.head? = some chQuote ∧ c.text.getLast? = some chQuote
  · rw [if_pos c6]
    cases parseStringLiteral c.text with
    | ok v => exact weak (marks_addStr c ⟨hc, one hx⟩)
    | err => exact ⟨hc.sound, rfl, _, List.mem_append_right _ (List.mem_singleton.2 rfl), _, rfl⟩
    | crash => trivial
  · rw [if_neg c6]
    exact ⟨hc.sound, rfl, _, List.mem_append_right _ (List.mem_singleton.2 rfl), _, rfl⟩

/-- A loop over all words. -/
theorem marks_scanLoop {α : Type} {σ : Shading} {body : P α}
    (h : ∀ p, 1 ≤ p → Marks σ (AtWord σ p) body fun _ c => Clean σ c) (fuel : Nat) :
    Marks σ (Clean σ) (P.scanLoop body fuel) fun _ c => Clean σ c := by
  induction fuel with
  | zero => exact fun c hc => ⟨hc, rfl⟩
  | succ fuel ih =>
    intro c hc
    unfold P.scanLoop
    rw [P.bind_apply]
    rcases clean_scan hc with ⟨d, h1, h2, h3, h4⟩ | ⟨d, h1, h2, h3, h4, h5, -⟩
    · rw [h1]
      dsimp only
      rw [if_pos rfl]
      have h6 : Marks σ (AtWord σ c.i) (do
          let a ← body
          let as ← P.scanLoop body fuel
          Pure.pure (a :: as)) fun _ c => Clean σ c :=
        (h c.i hc.mid.one).bind fun a => ih.bind fun as => fun c hc => ⟨hc, rfl⟩
      have h7 := h6 d ⟨h2, h3⟩
      cases hm : ((do
          let a ← body
          let as ← P.scanLoop body fuel
          Pure.pure (a :: as) : P (List α)) d) with
      | ok a e => rw [hm] at h7; exact ⟨h7.1, h7.2.trans h4⟩
      | fail e => rw [hm] at h7; exact ⟨h7.1, h7.2.1.trans h4, h7.2.2⟩
      | crash => trivial
    · rw [h1]
      exact ⟨h2, h5⟩

theorem marks_emit {σ : Shading} (o : Op) : Marks σ (Clean σ) (P.emit o) fun _ c => Clean σ c :=
  fun _ hc => ⟨⟨⟨hc.mid.one, hc.mid.bound, hc.mid.ne, hc.mid.text⟩, hc.upto, hc.nodup, hc.times⟩, rfl⟩

theorem marks_then {α : Type} {σ : Shading} {pre : LineCtx → Prop} {m : P α} {mid : α → LineCtx → Prop} {f : α → Op}
    (h : Marks σ pre m mid) (hm : ∀ a c, mid a c → Clean σ c) : Marks σ pre (m >>= fun a => P.emit (f a)) fun _ c => Clean σ c :=
  (h.weaken (fun _ h => h) hm).bind fun a => marks_emit (f a)

theorem Next.clean {σ : Shading} {p : Nat} {c : LineCtx} (h : Next σ p c) : Clean σ c := h.1

theorem marks_bytes {σ : Shading} [Once σ] (hs : ∀ p x, 1 ≤ p → σ p x = ArgType.bytes.shade x) :
    Marks σ (Next σ 1) P.mustReadBytes fun _ c => Clean σ c :=
  (marks_mustReadArg σ 1).bind fun _ =>
    (marks_parseBytes (fun x => hs 1 x (by omega)) (fun x => hs 2 x (by omega))).weaken (fun _ h => h)
      fun _ _ h => h.elim (·.1) (·.1)

theorem marks_bytesArray {σ : Shading} [Once σ] (hs : ∀ p x, 1 ≤ p → σ p x = ArgType.bytes.shade x) :
    Marks σ (Next σ 1) P.readBytesArray fun _ c => Clean σ c :=
  fun c hc => marks_scanLoop (fun p hp =>
    (marks_parseBytes (fun x => hs p x hp) (fun x => hs (p + 1) x (by omega))).weaken (fun _ h => h)
      fun _ _ h => h.elim (·.1) (·.1)) _ c hc.1

theorem marks_labelsArray {σ : Shading} [Once σ] (hs : ∀ p x, 1 ≤ p → σ p x = 1) :
    Marks σ (Next σ 1) P.readLabelsArray fun _ c => Clean σ c :=
  fun c hc => marks_scanLoop (fun p hp => by
    intro c hc
    have h := marks_addRef c ⟨hc, hs p _ hp⟩
    exact ⟨h.1.1, h.2⟩) _ c hc.1

theorem marks_uintArray {σ : Shading} (ht : σ.times = 2) (hs : ∀ p x, 1 ≤ p → σ p x = 6) :
    Marks σ (Next σ 1) P.readUint64Array fun _ c => Clean σ c :=
  fun c hc => marks_scanLoop (fun p hp => by
    intro c hc
    simp only [P.bind_apply, P.parseUint64, P.text]
    unfold P.orFail
    cases hr : readInt c.text with
    | none => exact ⟨hc.sound, rfl, _, List.mem_append_right _ (List.mem_singleton.2 rfl), _, rfl⟩
    | some a =>
      have h2 := marks_addNum_twice ht c ⟨hc, hs p _ hp⟩
      exact ⟨h2.1.1, h2.2⟩) _ c hc.1

instance {x0} : Once (Shape.u8 x0).shading := ⟨rfl⟩
instance {x0} : Once (Shape.u8u8 x0).shading := ⟨rfl⟩
instance {x0} : Once (Shape.i8 x0).shading := ⟨rfl⟩
instance {x0} {x1} : Once (Shape.field x0 x1).shading := ⟨rfl⟩
instance {x0 x1} : Once (Shape.fieldOptIdx x0 x1).shading := ⟨rfl⟩
instance {x0} : Once (Shape.fieldIdx x0).shading := ⟨rfl⟩
instance {x0} {x1} : Once (Shape.groupField x0 x1).shading := ⟨rfl⟩
instance : Once (Shape.gtxn).shading := ⟨rfl⟩
instance : Once (Shape.gtxna).shading := ⟨rfl⟩
instance : Once (Shape.gitxna).shading := ⟨rfl⟩
instance : Once (Shape.int).shading := ⟨rfl⟩
instance : Once (Shape.pushint).shading := ⟨rfl⟩
instance : Once (Shape.byte).shading := ⟨rfl⟩
instance : Once (Shape.pushbytes).shading := ⟨rfl⟩
instance : Once (Shape.addr).shading := ⟨rfl⟩
instance : Once (Shape.method).shading := ⟨rfl⟩
instance : Once (Shape.bytecblock).shading := ⟨rfl⟩
instance : Once (Shape.pushbytess).shading := ⟨rfl⟩
instance {x0} : Once (Shape.branch x0).shading := ⟨rfl⟩
instance : Once (Shape.switch).shading := ⟨rfl⟩
instance : Once (Shape.match_).shading := ⟨rfl⟩
instance : Once (Shape.replace).shading := ⟨rfl⟩
instance : Once (Shape.extract).shading := ⟨rfl⟩

theorem sh_rfl {sh : Shape} {p : Nat} {f : Bytes → Nat} (h : sh.shade p = f) (x : Bytes) : sh.shading p x = f x := congrFun h x

/-- The parse functions record the operands as they are to be. -/
theorem marks_parseShape (addrOk : Bytes → Bool) (sh : Shape) :
    Marks sh.shading (Next sh.shading 1) (P.parseShape addrOk sh) fun _ c => Clean sh.shading c := by
  cases sh with
  | plain k => exact (marks_emit _).weaken (fun _ h => h.1) fun _ _ h => h
  | u8 k => exact marks_then (marks_uint8 fun _ => rfl) fun _ _ => Next.clean
  | u8u8 k => exact Marks.bind (marks_uint8 fun _ => rfl) fun _ => marks_then (marks_uint8 fun _ => rfl) fun _ _ => Next.clean
  | i8 k => exact marks_then (marks_int8 fun _ => rfl) fun _ _ => Next.clean
  | field r k => exact marks_then (marks_field r fun _ => rfl) fun _ _ => Next.clean
  | fieldIdx k => exact Marks.bind (marks_field (.txn .txna) (sh_rfl rfl)) fun _ => marks_then (marks_uint8 fun _ => rfl) fun _ _ => Next.clean
  | fieldOptIdx k k' =>
    refine Marks.bind (marks_field (.txn .txn) (sh_rfl rfl)) fun f => Marks.bind (marks_maybe fun _ => rfl) fun a => ?_
    refine Marks.weaken (pre := Clean _) ?_ (fun _ h => h.elim (·.2.1) (·.2.1)) fun _ _ h => h
    cases a <;> exact marks_emit _
  | groupField c k => exact Marks.bind (marks_uint8 fun _ => rfl) fun _ => marks_then (marks_field (.txn c) (sh_rfl rfl)) fun _ _ => Next.clean
  | gtxn =>
    refine Marks.bind (marks_uint8 fun _ => rfl) fun t => Marks.bind (marks_field (.txn .txn) (sh_rfl rfl)) fun f => Marks.bind (marks_maybe fun _ => rfl) fun a => ?_
    refine Marks.weaken (pre := Clean _) ?_ (fun _ h => h.elim (·.2.1) (·.2.1)) fun _ _ h => h
    cases a <;> exact marks_emit _
  | gtxna =>
    exact Marks.bind (marks_uint8 fun _ => rfl) fun t => Marks.bind (marks_field (.txn .txna) (sh_rfl rfl)) fun f =>
      marks_then (marks_uint8 fun _ => rfl) fun _ _ => Next.clean
  | gitxna =>
    exact Marks.bind (marks_uint64 fun _ => rfl) fun t => Marks.bind (marks_field (.txn .txna) (sh_rfl rfl)) fun f =>
      marks_then (marks_uint8 fun _ => rfl) fun _ _ => Next.clean
  | int => exact marks_then (marks_const fun _ => rfl) fun _ _ => Next.clean
  | pushint => exact marks_then (marks_uint64 fun _ => rfl) fun _ _ => Next.clean
  | byte => exact marks_then (marks_bytes fun p _ _ => (Shape.shade_one rfl (fun _ h => by cases h) p _).trans rfl) fun _ _ h => h
  | pushbytes => exact marks_then (marks_bytes fun p _ _ => (Shape.shade_one rfl (fun _ h => by cases h) p _).trans rfl) fun _ _ h => h
  | addr => exact marks_then (marks_addr addrOk fun _ => rfl) fun _ _ => Next.clean
  | method => exact marks_then (marks_signature fun _ => rfl) fun _ _ => Next.clean
  | intcblock => exact marks_then (marks_uintArray rfl fun p _ _ => (Shape.shade_one rfl (fun _ h => by cases h) p _).trans rfl) fun _ _ h => h
  | pushints => exact marks_then (marks_uintArray rfl fun p _ _ => (Shape.shade_one rfl (fun _ h => by cases h) p _).trans rfl) fun _ _ h => h
  | bytecblock => exact marks_then (marks_bytesArray fun p _ _ => (Shape.shade_one rfl (fun _ h => by cases h) p _).trans rfl) fun _ _ h => h
  | pushbytess => exact marks_then (marks_bytesArray fun p _ _ => (Shape.shade_one rfl (fun _ h => by cases h) p _).trans rfl) fun _ _ h => h
  | branch k => exact marks_then (marks_label fun _ => rfl) fun _ _ => Next.clean
  | switch => exact marks_then (marks_labelsArray fun p _ _ => (Shape.shade_one rfl (fun _ h => by cases h) p _).trans rfl) fun _ _ h => h
  | match_ => exact marks_then (marks_labelsArray fun p _ _ => (Shape.shade_one rfl (fun _ h => by cases h) p _).trans rfl) fun _ _ h => h
  | replace =>
    refine Marks.bind (marks_maybe fun _ => rfl) fun a => ?_
    refine Marks.weaken (pre := Clean _) ?_ (fun _ h => h.elim (·.2.1) (·.2.1)) fun _ _ h => h
    cases a <;> exact marks_emit _
  | extract =>
    refine Marks.bind (marks_maybe fun _ => rfl) fun a => ?_
    cases a with
    | none => exact (marks_emit _).weaken (fun _ h => h.elim (·.2.1) (·.2.1)) fun _ _ h => h
    | some s =>
      refine Marks.weaken (pre := Next _ 2) ?_ (fun _ h => h.elim (·.2) (fun h => (by cases h.1))) fun _ _ h => h
      exact marks_then (marks_uint8 fun _ => rfl) fun _ _ => Next.clean

/-- What a line with an instruction records. -/
theorem parseOp_marks (addrOk : Bytes → Bool) (e : OpEntry) {c d : LineCtx} (hc : Next e.shape.shading 1 c)
    (h : recovered (parseOp addrOk e c) = some d) :
    d.Sound e.shape.shading ∧ d.mcrs = c.mcrs ∧
      ((∀ x ∈ d.diag, ∀ w, x.kind ≠ .parse w) → d.Upto e.shape.shade d.ts.length) := by
  have hm : Marks e.shape.shading (Next e.shape.shading 1) (parseOp addrOk e) fun _ c => AtEnd e.shape.shading c := by
    refine (marks_parseShape addrOk e.shape).bind fun _ => ?_
    intro c hc
    rw [P.bind_apply]
    simp only [P.hasMore]
    by_cases hl : c.i < c.ts.length
    · rw [decide_eq_true hl, if_pos rfl, P.bind_apply]
      rcases clean_scan hc with ⟨d, h1, h2, h3, h4⟩ | ⟨d, h1, h2, h3, h4, h5, -⟩
      · rw [h1]
        exact ⟨h2.sound, h4, _, List.mem_append_right _ (List.mem_singleton.2 rfl), _, rfl⟩
      · omega
    · rw [decide_eq_false hl, if_neg (by decide)]
      exact ⟨⟨hc, by omega⟩, rfl⟩
  have := hm c hc
  cases hp : parseOp addrOk e c with
  | ok a d' =>
    rw [hp] at h this
    injection h with h
    subst h
    refine ⟨this.1.1.sound, this.2, fun _ t ty => ?_⟩
    rw [this.1.1.upto t ty]
    have hl := this.1.2
    constructor
    · rintro ⟨p, h1, h2, h3, h4⟩
      exact ⟨p, h1, (List.getElem?_eq_some_iff.1 h3).1, h3, h4⟩
    · rintro ⟨p, h1, h2, h3, h4⟩
      exact ⟨p, h1, by omega, h3, h4⟩
  | fail d' =>
    rw [hp] at h this
    injection h with h
    subst h
    obtain ⟨h1, h2, x, h3, w, h4⟩ := this
    exact ⟨h1, h2, fun hn => absurd h4 (hn x h3 w)⟩
  | crash => rw [hp] at h; cases h

end Teal
