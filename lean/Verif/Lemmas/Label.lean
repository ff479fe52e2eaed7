import Verif.Spec.Label
import Verif.Lemmas.LineOps
import Verif.Lemmas.Rename
import Verif.Lemmas.LineEdit
import Verif.Lemmas.Surplus
import Verif.Props.Numbers

/-! # Comments and functions of labels -/

namespace Teal.Props

open Teal Teal.Spec

theorem joinLF_eq (l : List Bytes) : joinLF l = [chLF].intercalate l := by
  induction l with
  | nil => rfl
  | cons a l ih =>
    cases l with
    | nil => simp [joinLF, List.intercalate]
    | cons b l =>
      rw [joinLF, ih]
      · simp [List.intercalate, List.intersperse]
      · simp

theorem labelLine_iff {ts : List Token} {k : Nat} {n : Bytes} :
    LabelLine ts k n ↔ ∃ t, labelWord ts k = some t ∧ n = t.v.dropLast := by
  constructor
  · rintro ⟨hn, t, h1, h2⟩
    refine ⟨t, ?_, by rw [h2, List.dropLast_concat]⟩
    unfold labelWord
    rw [Option.filter_eq_some_iff]
    exact ⟨h1, by rw [(labelName_eq).2 ⟨h2, hn⟩]; rfl⟩
  · rintro ⟨t, h1, rfl⟩
    obtain ⟨_, h2, h3⟩ := labelWord_some h1
    unfold labelWord at h1
    rw [Option.filter_eq_some_iff] at h1
    exact ⟨h3, t, h1.1, h2⟩

theorem labelLine_unique {ts : List Token} {k : Nat} {n m : Bytes} (h : LabelLine ts k n) (h' : LabelLine ts k m) : n = m := by
  obtain ⟨t, h1, rfl⟩ := labelLine_iff.1 h
  obtain ⟨t', h2, rfl⟩ := labelLine_iff.1 h'
  rw [h1] at h2; cases h2; rfl

/-- The comment of a line of the model. -/
def lineComment : List Token → List Bytes
  | t :: _ => if t.t = .comment then (if trimSpace t.v = b!"#pragma mode logicsig" then [] else [t.v]) else []
  | [] => []

theorem next_comments {addrOk : Bytes → Bool} {s : Carry} {k : Nat} {line : List Token} {o : LineOut} (hok : LineOk k line)
    (h : processLine addrOk s line = some o) :
    o.next.comments = if (labelHead line).isSome then [] else s.comments ++ lineComment line := by
  cases line with
  | nil =>
    simp only [processLine, Option.some.injEq] at h
    subst h
    simp [labelHead, lineComment]
  | cons t ts =>
    unfold processLine at h
    simp only at h
    by_cases hc : t.t = .comment
    · rw [if_pos hc] at h
      have h1 : labelHead (t :: ts) = none := by simp [labelHead, hc]
      rw [h1]
      simp only [lineComment]
      rw [if_pos hc]
      split at h <;> cases h <;> rename_i hm
      · simp [hm]
      · simp [hm]
    · rw [if_neg hc] at h
      simp only [lineComment]
      rw [if_neg hc]
      have hval : t.t = .value := by
        rcases hok.shape with ⟨c, h1, h2⟩ | h1
        · injection h1 with h1; rw [h1] at hc; exact absurd h2 hc
        · exact (h1 t (by simp)).1
      split at h
      · rename_i hl
        split at h
        · rename_i hn
          obtain ⟨c, h1, rfl⟩ := Option.map_eq_some_iff.1 h
          have h1 : labelHead (t :: ts) = none := by
            have : labelName t.v = none := by
              cases hx : labelName t.v with
              | none => rfl
              | some n =>
                obtain ⟨h2, h3⟩ := labelName_eq.1 hx
                rw [h2, List.dropLast_concat] at hn
                exact absurd hn h3
            simp [labelHead, this]
          rw [h1]; simp
        · rename_i hn
          cases h
          have h1 : labelHead (t :: ts) = some t := by
            have : labelName t.v = some t.v.dropLast := labelName_eq.2 ⟨(List.dropLast_append_getLast? _ hl).symm, hn⟩
            simp [labelHead, this, hval]
          rw [h1]; simp
      · rename_i hl
        have h1 : labelHead (t :: ts) = none := by
          have : labelName t.v = none := by
            cases hx : labelName t.v with
            | none => rfl
            | some n =>
              obtain ⟨h2, h3⟩ := labelName_eq.1 hx
              rw [h2] at hl
              simp at hl
          simp [labelHead, this]
        rw [h1]
        simp only [Option.isSome_none, Bool.false_eq_true, if_false, List.append_nil]
        split at h
        · cases h; rfl
        · split at h
          · obtain ⟨c, h1, rfl⟩ := Option.map_eq_some_iff.1 h; rfl
          · split at h
            · obtain ⟨c, h1, rfl⟩ := Option.map_eq_some_iff.1 h; rfl
            · obtain ⟨c, h1, rfl⟩ := Option.map_eq_some_iff.1 h; rfl

theorem lineComment_eq (src : Bytes) (k : Nat) : lineComment (lineTokens (tokens src) k) = ownComment (tokens src) k := by
  unfold ownComment lineTokens
  by_cases hw : words (tokens src) k = []
  · rw [if_pos hw, if_pos hw]
    have := (onLine_split (readTokens_seq src) k).2
    cases hc : comments (tokens src) k with
    | nil => rfl
    | cons c cs =>
      have hcs : cs = [] := by
        unfold tokens at hc
        rw [hc] at this
        cases cs with | nil => rfl | cons => simp at this
      subst hcs
      have := (mem_comments.1 (hc ▸ List.mem_cons_self : c ∈ comments (tokens src) k)).2.2
      simp only [lineComment, this, if_true, List.map_cons, List.map_nil, List.filter_cons, List.filter_nil]
      split <;> rename_i h <;> simp [h]
  · rw [if_neg hw, if_neg hw]
    cases hc : words (tokens src) k with
    | nil => exact absurd hc hw
    | cons c cs =>
      have := (mem_words.1 (hc ▸ List.mem_cons_self : c ∈ words (tokens src) k)).2.2
      simp [lineComment, this]

/-- The comments collected when line `k` is read. -/
theorem carry_comments {addrOk : Bytes → Bool} {src : Bytes} {os : List LineOut} (hr : Run addrOk {} (linesOf src) os) :
    ∀ k, k ≤ lineCount (tokens src) → CommentsAbove (tokens src) k (carryAt {} os k).comments := by
  intro k
  induction k with
  | zero => exact fun _ => ⟨0, Nat.le_refl _, .inl rfl, fun i n h1 h2 => by omega, rfl⟩
  | succ k ih =>
    intro hk
    obtain ⟨o, ho, hp, -⟩ := hr.get k _ ((linesOf_get src k _).2 ⟨hk, rfl⟩)
    have hc : carryAt {} os (k + 1) = o.next := by
      show (os[k]?.map (·.next)).getD {} = _
      rw [ho]; rfl
    rw [hc, next_comments (lineOk (readTokens_seq src) k) hp, labelHead_eq]
    obtain ⟨j, h1, h2, h3, h4⟩ := ih (by omega)
    split
    · rename_i hl
      obtain ⟨t, ht⟩ := Option.isSome_iff_exists.1 hl
      exact ⟨k + 1, Nat.le_refl _, .inr ⟨_, labelLine_iff.2 ⟨t, ht, rfl⟩⟩, fun i n h1 h2 => by omega, by simp⟩
    · rename_i hl
      refine ⟨j, by omega, h2, ?_, ?_⟩
      · intro i n h5 h6
        rcases Nat.lt_succ_iff_lt_or_eq.1 h6 with h7 | rfl
        · exact h3 i n h5 h7
        · intro h
          obtain ⟨t, ht, -⟩ := labelLine_iff.1 h
          rw [ht] at hl; exact hl rfl
      · rw [h4, show k + 1 - j = (k - j) + 1 by omega, List.range'_concat, List.flatMap_append, List.flatMap_singleton, Nat.one_mul,
          show j + (k - j) = k by omega]
        exact congrArg _ (lineComment_eq src k)

theorem commentsAbove_unique {ts : List Token} {k : Nat} {cs cs' : List Bytes} (h : CommentsAbove ts k cs) (h' : CommentsAbove ts k cs') :
    cs = cs' := by
  obtain ⟨j, h1, h2, h3, h4⟩ := h
  obtain ⟨j', h1', h2', h3', h4'⟩ := h'
  have : j = j' := by
    rcases Nat.lt_trichotomy j j' with hlt | h | hlt
    · rcases h2' with rfl | ⟨n, hn⟩
      · omega
      · exact absurd hn (h3 _ n (by omega) (by omega))
    · exact h
    · rcases h2 with rfl | ⟨n, hn⟩
      · omega
      · exact absurd hn (h3' _ n (by omega) (by omega))
  subst this
  rw [h4, h4']

/-! ## Functions -/

theorem under_succ {ts : List Token} {k : Nat} {n : Bytes} :
    Under ts (k + 1) n ↔ LabelLine ts k n ∨ ((∀ m, ¬ LabelLine ts k m) ∧ Under ts k n) := by
  constructor
  · rintro ⟨j, h1, h2, h3⟩
    rcases Nat.lt_succ_iff_lt_or_eq.1 h1 with h4 | rfl
    · exact .inr ⟨fun m => h3 k m h4 (by omega), j, h4, h2, fun i m h5 h6 => h3 i m h5 (by omega)⟩
    · exact .inl h2
  · rintro (h | ⟨h1, j, h2, h3, h4⟩)
    · exact ⟨k, by omega, h, fun i m h1 h2 => by omega⟩
    · refine ⟨j, by omega, h3, fun i m h5 h6 => ?_⟩
      rcases Nat.lt_succ_iff_lt_or_eq.1 h6 with h7 | rfl
      · exact h4 i m h5 h7
      · exact h1 m

theorem under_unique {ts : List Token} {k : Nat} {n m : Bytes} (h : Under ts k n) (h' : Under ts k m) : n = m := by
  obtain ⟨j, h1, h2, h3⟩ := h
  obtain ⟨j', h1', h2', h3'⟩ := h'
  rcases Nat.lt_trichotomy j j' with hlt | rfl | hlt
  · exact absurd h2' (h3 _ _ hlt h1')
  · exact labelLine_unique h2 h2'
  · exact absurd h2 (h3' _ _ hlt h1)

theorem proto_shape : ∀ e ∈ opsList, (e.name = b!"proto" ↔ e.shape = .u8u8 .proto) := by decide +kernel

theorem ret_some {α : Type} {a o : α} {ver : Nat} {ws rest : List Bytes} : Reader.ret a ver ws = some (o, rest) ↔ a = o ∧ ws = rest := by
  unfold Reader.ret
  simp

theorem reader_bind {α β : Type} {m : Reader α} {f : α → Reader β} {ver : Nat} {ws : List Bytes} {p : β × List Bytes} :
    m.bind f ver ws = some p ↔ ∃ a ws', m ver ws = some (a, ws') ∧ f a ver ws' = some p := by
  unfold Reader.bind
  cases m ver ws with
  | none => simp
  | some q =>
    obtain ⟨a, ws'⟩ := q
    simp only [Option.some.injEq, Prod.mk.injEq]
    constructor
    · intro h; exact ⟨a, ws', ⟨rfl, rfl⟩, h⟩
    · rintro ⟨_, _, ⟨rfl, rfl⟩, h⟩; exact h

theorem word_some {α : Type} {r : Nat → Bytes → Option α} {ver : Nat} {ws ws' : List Bytes} {a : α} :
    Reader.word r ver ws = some (a, ws') ↔ ∃ x, ws = x :: ws' ∧ r ver x = some a := by
  unfold Reader.word
  cases ws with
  | nil => simp
  | cons x xs =>
    cases hx : r ver x with
    | none =>
      simp only [hx, Option.map_none]
      constructor
      · intro h; cases h
      · rintro ⟨y, h, h'⟩; cases h; rw [hx] at h'; cases h'
    | some b =>
      simp only [hx, Option.map_some, Option.some.injEq, Prod.mk.injEq]
      constructor
      · rintro ⟨rfl, rfl⟩; exact ⟨x, rfl, hx⟩
      · rintro ⟨y, h, h'⟩; cases h; rw [hx] at h'; cases h'; exact ⟨rfl, rfl⟩

/-- The operations of a line that matter for functions. -/
theorem proto_ops {addrOk : Bytes → Bool} {ver : Nat} (ws : List Bytes) :
    ∃ o tl, opsOf addrOk ver ws = o :: tl ∧ (tl = [] ∨ tl = [.empty]) ∧
      ∀ a r, o = .u8u8 .proto a r ↔ ∃ x y rest, ws = b!"proto" :: x :: y :: rest ∧ readUint8 x = some a ∧ readUint8 y = some r := by
  have key : ∀ {sh : Shape} {ver : Nat} {ws rest : List Bytes} {a r : Nat}, evalShape addrOk sh ver ws = some (.u8u8 .proto a r, rest) →
      sh = .u8u8 .proto := by
    intro sh ver ws rest a r h
    cases sh with
    | u8u8 k =>
      simp only [evalShape, reader_bind, ret_some] at h
      obtain ⟨_, _, _, _, _, _, h, _⟩ := h
      cases h; rfl
    | extract =>
      simp only [evalShape, reader_bind] at h
      obtain ⟨n, _, _, h⟩ := h
      cases n with
      | none => simp only [ret_some] at h; cases h.1
      | some n =>
        simp only [reader_bind, ret_some] at h
        obtain ⟨_, _, _, h, _⟩ := h
        cases h
    | fieldOptIdx k k' =>
      simp only [evalShape, reader_bind, ret_some] at h
      obtain ⟨_, _, _, n, _, _, h, _⟩ := h
      cases n <;> cases h
    | gtxn =>
      simp only [evalShape, reader_bind, ret_some] at h
      obtain ⟨_, _, _, _, _, _, n, _, _, h, _⟩ := h
      cases n <;> cases h
    | replace =>
      simp only [evalShape, reader_bind, ret_some] at h
      obtain ⟨n, _, _, h, _⟩ := h
      cases n <;> cases h
    | _ =>
      simp only [evalShape, reader_bind, ret_some] at h
      first
        | (obtain ⟨_, _, _, _, _, _, _, _, _, h, _⟩ := h; cases h; done)
        | (obtain ⟨_, _, _, _, _, _, h, _⟩ := h; cases h; done)
        | (obtain ⟨_, _, _, h, _⟩ := h; cases h; done)
        | (obtain ⟨h, _⟩ := h; cases h; done)
  have hno : ∀ (o : Op), (∀ a r, o ≠ .u8u8 .proto a r) → (∀ x y rest, ws ≠ b!"proto" :: x :: y :: rest) →
      ∀ a r, o = .u8u8 .proto a r ↔ ∃ x y rest, ws = b!"proto" :: x :: y :: rest ∧ readUint8 x = some a ∧ readUint8 y = some r :=
    fun o h1 h2 a r => ⟨fun h => absurd h (h1 a r), fun ⟨x, y, rest, h, _⟩ => absurd h (h2 x y rest)⟩
  cases ws with
  | nil => exact ⟨_, _, rfl, .inl rfl, hno _ (by simp) (by simp)⟩
  | cons w ws =>
    simp only [opsOf]
    split
    · rename_i hl
      have hw : w ≠ b!"proto" := by rintro rfl; exact absurd hl (by decide)
      split
      · exact ⟨_, _, rfl, .inl rfl, hno _ (by simp) (fun x y rest h => hw (List.cons.inj h).1)⟩
      · exact ⟨_, _, rfl, .inl rfl, hno _ (by simp) (fun x y rest h => hw (List.cons.inj h).1)⟩
    · split
      · rename_i hl
        have hw : w ≠ b!"proto" := by rw [hl]; decide
        split
        · exact ⟨_, _, rfl, .inl rfl, hno _ (by simp) (fun x y rest h => hw (List.cons.inj h).1)⟩
        · exact ⟨_, _, rfl, .inl rfl, hno _ (by simp) (fun x y rest h => hw (List.cons.inj h).1)⟩
      · split
        · rename_i e he
          obtain ⟨hm, hn⟩ := opsGet_mem he
          have hs := proto_shape e hm
          rw [hn] at hs
          have hev : ∀ a r, (∃ rest, evalShape addrOk e.shape ver ws = some (.u8u8 .proto a r, rest)) ↔
              ∃ x y rest, w :: ws = b!"proto" :: x :: y :: rest ∧ readUint8 x = some a ∧ readUint8 y = some r := by
            intro a r
            constructor
            · rintro ⟨rest, h⟩
              have h1 := key h
              rw [h1] at h
              obtain ⟨x, xs, a', rfl, h2⟩ := word_left h
              obtain ⟨y, ys, r', rfl, h3⟩ := word_left h2
              simp only [evalShape, reader_bind, ret_some, word_some] at h
              obtain ⟨_, _, ⟨_, e1, h4⟩, _, _, ⟨_, e2, h5⟩, h6, _⟩ := h
              cases h6; cases e1; cases e2
              exact ⟨_, _, _, by rw [hs.2 h1], h4, h5⟩
            · rintro ⟨x, y, rest, h, h1, h2⟩
              cases h
              rw [hs.1 rfl]
              refine ⟨rest, ?_⟩
              simp only [evalShape, reader_bind, ret_some, word_some]
              exact ⟨a, _, ⟨x, rfl, h1⟩, r, _, ⟨y, rfl, h2⟩, rfl, rfl⟩
          generalize evalShape addrOk e.shape ver ws = ev at hev
          have hout : ∃ o tl, readOps ev = o :: tl ∧ (tl = [] ∨ tl = [.empty]) ∧ ∀ a r, o = .u8u8 .proto a r ↔ ∃ rest, ev = some (.u8u8 .proto a r, rest) := by
            match ev with
            | none => exact ⟨_, _, rfl, .inl rfl, by simp⟩
            | some (o, []) => exact ⟨_, _, rfl, .inl rfl, by simp⟩
            | some (o, _ :: _) => exact ⟨_, _, rfl, .inr rfl, by simp⟩
          obtain ⟨o, tl, h1, h2, h3⟩ := hout
          exact ⟨o, tl, h1, h2, fun a r => (h3 a r).trans (hev a r)⟩
        · rename_i he
          have hw : w ≠ b!"proto" := by
            rintro rfl
            exact absurd he (by decide +kernel)
          exact ⟨_, _, rfl, .inl rfl, hno _ (by simp) (fun x y rest h => hw (List.cons.inj h).1)⟩

theorem isByte_iff {w : Bytes} {n : Nat} : readUint8 w = some n ↔ IsByte w n := (C11_uint8 w n).trans (by
  unfold IsByte; exact Iff.rfl)

/-- What is known about functions when line `k` is reached. -/
structure Protos (ts : List Token) (k : Nat) (s : Option Bytes × GoMap (Nat × Nat)) : Prop where
  cur : ∀ n, s.1 = some n ↔ Under ts k n
  known : ∀ n a r, s.2.get n = some (a, r) ↔
    ∃ i, i < k ∧ ProtoLine ts i a r ∧ Under ts i n ∧ ∀ i' a' r', i < i' → i' < k → ProtoLine ts i' a' r' → ¬ Under ts i' n

theorem Protos.step {ts : List Token} {k : Nat} {s : Option Bytes × GoMap (Nat × Nat)} (h : Protos ts k s) {o : Op}
    (hp : ∀ a r, o = .u8u8 .proto a r ↔ ProtoLine ts k a r) (hl : ∀ n, o = .label n ↔ LabelLine ts k n) :
    Protos ts (k + 1) (protosStep s o) := by
  by_cases h1 : ∃ n, o = .label n
  · obtain ⟨n, rfl⟩ := h1
    have hno : ∀ a r, ¬ ProtoLine ts k a r := fun a r h => by have := (hp a r).2 h; cases this
    have hln := (hl n).1 rfl
    constructor
    · intro m
      rw [under_succ]
      show some n = some m ↔ _
      constructor
      · intro e; cases e; exact .inl hln
      · rintro (h2 | ⟨h2, -⟩)
        · rw [labelLine_unique hln h2]
        · exact absurd hln (h2 n)
    · intro m a r
      show s.2.get m = _ ↔ _
      rw [h.known]
      constructor
      · rintro ⟨i, h2, h3, h4, h5⟩
        refine ⟨i, by omega, h3, h4, fun i' a' r' h6 h7 h8 => ?_⟩
        rcases Nat.lt_succ_iff_lt_or_eq.1 h7 with h9 | rfl
        · exact h5 i' a' r' h6 h9 h8
        · exact absurd h8 (hno _ _)
      · rintro ⟨i, h2, h3, h4, h5⟩
        rcases Nat.lt_succ_iff_lt_or_eq.1 h2 with h9 | rfl
        · exact ⟨i, h9, h3, h4, fun i' a' r' h6 h7 h8 => h5 i' a' r' h6 (by omega) h8⟩
        · exact absurd h3 (hno _ _)
  · have hnl : ∀ n, ¬ LabelLine ts k n := fun n hn => h1 ⟨n, (hl n).2 hn⟩
    have hu : ∀ n, Under ts (k + 1) n ↔ Under ts k n := fun n => by
      rw [under_succ]
      exact ⟨fun h => h.elim (fun h => absurd h (hnl n)) (fun h => h.2), fun h => .inr ⟨hnl, h⟩⟩
    by_cases h2 : ∃ a r, o = .u8u8 .proto a r
    · obtain ⟨a, r, rfl⟩ := h2
      have hpl := (hp a r).1 rfl
      have huniq : ∀ a' r', ProtoLine ts k a' r' → a' = a ∧ r' = r := fun a' r' h3 => by
        have := (hp a' r').2 h3
        cases this; exact ⟨rfl, rfl⟩
      cases hc : s.1 with
      | none =>
        have hnu : ∀ n, ¬ Under ts k n := fun n hn => by have := (h.cur n).2 hn; rw [hc] at this; cases this
        have hs : protosStep s (.u8u8 .proto a r) = s := by unfold protosStep; simp only [hc]
        rw [hs]
        refine ⟨fun n => (h.cur n).trans (hu n).symm, fun n b q => ?_⟩
        rw [h.known]
        constructor
        · rintro ⟨i, h2, h3, h4, h5⟩
          refine ⟨i, by omega, h3, h4, fun i' a' r' h6 h7 h8 => ?_⟩
          rcases Nat.lt_succ_iff_lt_or_eq.1 h7 with h9 | rfl
          · exact h5 i' a' r' h6 h9 h8
          · exact hnu n
        · rintro ⟨i, h2, h3, h4, h5⟩
          rcases Nat.lt_succ_iff_lt_or_eq.1 h2 with h9 | rfl
          · exact ⟨i, h9, h3, h4, fun i' a' r' h6 h7 h8 => h5 i' a' r' h6 (by omega) h8⟩
          · exact absurd h4 (hnu n)
      | some m =>
        have hm := (h.cur m).1 hc
        have hs : protosStep s (.u8u8 .proto a r) = (s.1, s.2.set m (a, r)) := by unfold protosStep; simp only [hc]
        rw [hs]
        refine ⟨fun n => (h.cur n).trans (hu n).symm, fun n b q => ?_⟩
        show (s.2.set m (a, r)).get n = _ ↔ _
        rw [GoMap.get_set]
        by_cases hmn : m = n
        · subst hmn
          rw [if_pos rfl]
          constructor
          · intro e; cases e
            exact ⟨k, by omega, hpl, hm, fun i' a' r' h6 h7 => by omega⟩
          · rintro ⟨i, h2, h3, h4, h5⟩
            rcases Nat.lt_succ_iff_lt_or_eq.1 h2 with h9 | rfl
            · exact absurd hm (h5 k a r h9 (by omega) hpl)
            · obtain ⟨rfl, rfl⟩ := huniq _ _ h3; rfl
        · rw [if_neg hmn, h.known]
          have hnu : ¬ Under ts k n := fun hn => hmn (under_unique hm hn)
          constructor
          · rintro ⟨i, h2, h3, h4, h5⟩
            refine ⟨i, by omega, h3, h4, fun i' a' r' h6 h7 h8 => ?_⟩
            rcases Nat.lt_succ_iff_lt_or_eq.1 h7 with h9 | rfl
            · exact h5 i' a' r' h6 h9 h8
            · exact hnu
          · rintro ⟨i, h2, h3, h4, h5⟩
            rcases Nat.lt_succ_iff_lt_or_eq.1 h2 with h9 | rfl
            · exact ⟨i, h9, h3, h4, fun i' a' r' h6 h7 h8 => h5 i' a' r' h6 (by omega) h8⟩
            · exact absurd h4 hnu
    · have hno : ∀ a r, ¬ ProtoLine ts k a r := fun a r h3 => h2 ⟨a, r, (hp a r).2 h3⟩
      have hs : protosStep s o = s := by
        unfold protosStep
        split
        · rename_i a r; exact absurd ⟨a, r, rfl⟩ h2
        · rename_i n; exact absurd ⟨n, rfl⟩ h1
        · rfl
      rw [hs]
      refine ⟨fun n => (h.cur n).trans (hu n).symm, fun m a r => ?_⟩
      rw [h.known]
      constructor
      · rintro ⟨i, h2, h3, h4, h5⟩
        refine ⟨i, by omega, h3, h4, fun i' a' r' h6 h7 h8 => ?_⟩
        rcases Nat.lt_succ_iff_lt_or_eq.1 h7 with h9 | rfl
        · exact h5 i' a' r' h6 h9 h8
        · exact absurd h8 (hno _ _)
      · rintro ⟨i, h2, h3, h4, h5⟩
        rcases Nat.lt_succ_iff_lt_or_eq.1 h2 with h9 | rfl
        · exact ⟨i, h9, h3, h4, fun i' a' r' h6 h7 h8 => h5 i' a' r' h6 (by omega) h8⟩
        · exact absurd h3 (hno _ _)

theorem protos_inv {addrOk : Bytes → Bool} {src : Bytes} {os : List LineOut} (hr : Run addrOk {} (linesOf src) os) :
    ∀ k, k ≤ lineCount (tokens src) → Protos (tokens src) k (((os.take k).flatMap (·.ctx.ops)).foldl protosStep (none, [])) := by
  intro k
  induction k with
  | zero =>
    intro _
    refine ⟨fun n => ⟨fun h => (by cases h), ?_⟩, fun n a r => ⟨fun h => (by cases h), ?_⟩⟩
    · rintro ⟨j, h, _⟩; exact absurd h (Nat.not_lt_zero j)
    · rintro ⟨j, h, _⟩; exact absurd h (Nat.not_lt_zero j)
  | succ k ih =>
    intro hk
    obtain ⟨o, ho, hops⟩ := line_ops addrOk src os hr k hk
    obtain ⟨o', ho', -, hf⟩ := hr.get k _ ((linesOf_get src k _).2 ⟨hk, rfl⟩)
    rw [ho] at ho'; cases ho'
    obtain ⟨x, tl, h1, h2, h3⟩ := proto_ops (addrOk := addrOk) (ver := (carryAt {} os k).version) ((words (tokens src) k).map Token.v)
    have h4 : o.ctx.ops = x :: tl := hops.trans h1
    have hlt : k < os.length := by
      have := List.getElem?_eq_some_iff.1 ho; exact this.1
    have h5 : os.take (k + 1) = os.take k ++ [o] := by
      rw [List.take_add_one, ho]; rfl
    rw [h5, List.flatMap_append, List.flatMap_singleton, h4, List.foldl_append, List.foldl_cons]
    have h6 : ∀ s, tl.foldl protosStep s = s := by
      intro s
      rcases h2 with rfl | rfl
      · rfl
      · rfl
    rw [h6]
    refine (ih (by omega)).step (fun a r => (h3 a r).trans ?_) ?_
    · unfold ProtoLine
      constructor
      · rintro ⟨u, v, rest, e, hu, hv⟩
        match hw : words (tokens src) k with
        | [] => rw [hw] at e; simp at e
        | [_] => rw [hw] at e; simp at e
        | [_, _] => rw [hw] at e; simp at e
        | t1 :: t2 :: t3 :: ts =>
          rw [hw] at e
          simp only [List.map_cons, List.cons.injEq] at e
          obtain ⟨e1, e2, e3, -⟩ := e
          exact ⟨t1, t2, t3, ts, rfl, e1, isByte_iff.1 (e2 ▸ hu), isByte_iff.1 (e3 ▸ hv)⟩
      · rintro ⟨t1, t2, t3, ts, hw, e, hu, hv⟩
        rw [hw]
        exact ⟨_, _, ts.map Token.v, by simp only [List.map_cons, e], isByte_iff.2 hu, isByte_iff.2 hv⟩
    · intro n
      have hd := hf.defs
      rw [h4, labelHead_eq] at hd
      have h7 : (x :: tl).filterMap Op.labelName? = x.labelName?.toList := by
        rcases h2 with rfl | rfl
        · rw [List.filterMap_cons]; cases x.labelName? <;> rfl
        · rw [List.filterMap_cons]; cases x.labelName? <;> rfl
      rw [h7] at hd
      rw [labelLine_iff]
      have h8 : x = .label n ↔ x.labelName? = some n := by
        cases x <;> simp [Op.labelName?]
      rw [h8]
      show _ ↔ ∃ t, labelWord (readTokens src).1 k = some t ∧ _
      cases hw : labelWord (readTokens src).1 k with
      | none =>
        rw [hw] at hd
        cases hx : x.labelName? with
        | none => simp
        | some m => rw [hx] at hd; simp at hd
      | some t =>
        rw [hw] at hd
        cases hx : x.labelName? with
        | none => rw [hx] at hd; simp at hd
        | some m =>
          rw [hx] at hd
          simp only [Option.toList_some, List.map_cons, List.map_nil, List.cons.injEq, and_true] at hd
          subst hd
          simp [eq_comm]

/-- The labels of a text, with their comments and functions. -/
theorem symbol_facts {env : Env} {src : Bytes} {r : ProcessResult} (h : process env src = some r) :
    (∀ s ∈ r.symbols, ∃ cs, LabelLine (tokens src) s.l s.name ∧ CommentsAbove (tokens src) s.l cs ∧ s.docs = [chLF].intercalate cs ∧
      ∀ a b, s.sig = some (a, b) ↔ FunctionOf (tokens src) s.name a b) ∧
    ∀ k n, LabelLine (tokens src) k n → ∃ s ∈ r.symbols, s.name = n ∧ s.l = k := by
  obtain ⟨os, hr, ha⟩ := process_run h
  unfold assemble at ha
  obtain ⟨lds, -, rfl⟩ := Option.map_eq_some_iff.1 ha
  have hlen : os.length = lineCount (tokens src) := by rw [hr.length]; exact linesOf_length src
  have hget : ∀ k, k < lineCount (tokens src) → ∃ o, os[k]? = some o ∧
      o.sym = (labelWord (tokens src) k).map fun t =>
        { name := t.v.dropLast, l := t.l, b := t.b, e := t.e, docs := joinLF (carryAt {} os k).comments } := by
    intro k hk
    obtain ⟨o, ho, -, hf⟩ := hr.get k _ ((linesOf_get src k _).2 ⟨hk, rfl⟩)
    refine ⟨o, ho, ?_⟩
    rw [hf.sym, labelHead_eq]
  have hword : ∀ k t, labelWord (tokens src) k = some t → k < lineCount (tokens src) ∧ t.l = k := by
    intro k t ht
    unfold labelWord at ht
    rw [Option.filter_eq_some_iff] at ht
    have hm := List.mem_of_mem_head? ht.1
    have h1 := mem_words.1 hm
    have h2 := Lsp.line_lt_count src t h1.1
    rw [h1.2.1] at h2
    exact ⟨h2, h1.2.1⟩
  constructor
  · intro s hs
    obtain ⟨s', hs', rfl⟩ := List.mem_map.1 hs
    obtain ⟨o, ho, hos⟩ := List.mem_filterMap.1 hs'
    obtain ⟨k, hk, hko⟩ := List.mem_iff_getElem.1 ho
    have hk' : k < lineCount (tokens src) := hlen ▸ hk
    obtain ⟨o', ho', hsym⟩ := hget k hk'
    rw [List.getElem?_eq_getElem hk, hko] at ho'
    cases ho'
    rw [hsym] at hos
    obtain ⟨t, ht, rfl⟩ := Option.map_eq_some_iff.1 hos
    have htl := (hword k t ht).2
    refine ⟨(carryAt {} os k).comments, ?_, ?_, joinLF_eq _, ?_⟩
    · rw [labelLine_iff]; exact ⟨t, htl ▸ ht, rfl⟩
    · show CommentsAbove _ t.l _
      rw [htl]; exact carry_comments hr k (by omega)
    · intro a b
      have := protos_inv hr (lineCount (tokens src)) (Nat.le_refl _)
      rw [← hlen, List.take_length] at this
      show (protosOf _).get _ = _ ↔ _
      refine (this.known t.v.dropLast a b).trans ?_
      have hpl : ∀ {i a r}, ProtoLine (tokens src) i a r → i < os.length := by
        rintro i a r ⟨t, x, y, rest, hw, -⟩
        have h1 := mem_words.1 (by rw [hw]; simp : t ∈ words (tokens src) i)
        have h2 := Lsp.line_lt_count src t h1.1
        rw [hlen, ← h1.2.1]; exact h2
      constructor
      · rintro ⟨i, h1, h2, h3, h4⟩
        exact ⟨i, h2, h3, fun i' a' r' h5 h6 => h4 i' a' r' h5 (hpl h6) h6⟩
      · rintro ⟨i, h2, h3, h4⟩
        exact ⟨i, hpl h2, h2, h3, fun i' a' r' h5 _ h6 => h4 i' a' r' h5 h6⟩
  · intro k n hkn
    obtain ⟨t, ht, rfl⟩ := labelLine_iff.1 hkn
    obtain ⟨hk, htl⟩ := hword k t ht
    obtain ⟨o, ho, hsym⟩ := hget k hk
    refine ⟨_, List.mem_map.2 ⟨_, List.mem_filterMap.2 ⟨o, List.mem_of_getElem? ho, by rw [hsym, ht]; rfl⟩, rfl⟩, rfl, htl⟩

end Teal.Props
