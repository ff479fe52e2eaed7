import Verif.Model.Process
import Verif.Lemmas.Strconv
import Verif.Lemmas.Fields

/-! Lemmas about reading one line: what the parse functions do to the context. -/

namespace Teal
open P

/-- `d` extends `c` by tokens of the line. -/
def Grew (ts : List Token) (c d : List Token) : Prop := ∃ x, d = c ++ x ∧ ∀ t ∈ x, t ∈ ts

theorem Grew.refl (ts c : List Token) : Grew ts c c := ⟨[], by simp, by simp⟩

theorem Grew.trans {ts a b c : List Token} (h1 : Grew ts a b) (h2 : Grew ts b c) : Grew ts a c := by
  obtain ⟨x, rfl, hx⟩ := h1
  obtain ⟨y, rfl, hy⟩ := h2
  refine ⟨x ++ y, by simp, fun t ht => ?_⟩
  rcases List.mem_append.1 ht with h | h
  · exact hx t h
  · exact hy t h

theorem Grew.snoc {ts : List Token} (c : List Token) {t : Token} (h : t ∈ ts) :
    Grew ts c (c ++ [t]) := ⟨[t], rfl, by simpa using h⟩

/-- What reading never does: change the line, the version or the emitted instructions, or record
a token of another line. -/
structure Keeps (c d : LineCtx) : Prop where
  ts : d.ts = c.ts
  version : d.version = c.version
  vtok : d.vtok = c.vtok
  ops : d.ops = c.ops
  le : c.i ≤ d.i
  nums : Grew c.ts c.nums d.nums
  strs : Grew c.ts c.strs d.strs
  keys : Grew c.ts c.keys d.keys
  mcrs : d.mcrs = c.mcrs

theorem Keeps.refl (c : LineCtx) : Keeps c c :=
  ⟨rfl, rfl, rfl, rfl, Nat.le_refl _, .refl _ _, .refl _ _, .refl _ _, rfl⟩

theorem Keeps.trans {a b c : LineCtx} (h1 : Keeps a b) (h2 : Keeps b c) : Keeps a c where
  ts := h2.ts.trans h1.ts
  version := h2.version.trans h1.version
  vtok := h2.vtok.trans h1.vtok
  ops := h2.ops.trans h1.ops
  le := Nat.le_trans h1.le h2.le
  nums := h1.nums.trans (h1.ts ▸ h2.nums)
  strs := h1.strs.trans (h1.ts ▸ h2.strs)
  keys := h1.keys.trans (h1.ts ▸ h2.keys)
  mcrs := h2.mcrs.trans h1.mcrs

/-- The diagnostic a failing read reports. -/
def parseDiag (why : ParseWhy) (t : Token) : Diag := ⟨.parse why, t.l, t.b, t.e⟩

/-- Between tokens or behind the last one. -/
structure Mid (c : LineCtx) : Prop where
  one : 1 ≤ c.i
  bound : c.i ≤ c.ts.length + 1
  ne : c.ts ≠ []
  text : ∀ t ∈ c.ts, t.v ≠ []

/-- At a token. -/
structure AtTok (c : LineCtx) : Prop extends Mid c where
  tok : c.i ≤ c.ts.length

theorem AtTok.curr_mem {c : LineCtx} (h : AtTok c) : c.curr ∈ c.ts := by
  have h1 := h.one; have h2 := h.tok
  unfold LineCtx.curr
  rw [if_pos ⟨by omega, h2⟩, List.getD_eq_getElem?_getD, List.getElem?_eq_getElem (by omega)]
  exact List.getElem_mem _

theorem AtTok.curr_eq {c : LineCtx} (h : AtTok c) : c.ts[c.i - 1]? = some c.curr := by
  have h1 := h.one; have h2 := h.tok
  unfold LineCtx.curr
  rw [if_pos ⟨by omega, h2⟩, List.getD_eq_getElem?_getD, List.getElem?_eq_getElem (by omega)]
  rfl

theorem AtTok.text_ne {c : LineCtx} (h : AtTok c) : c.text ≠ [] := h.text _ h.curr_mem

/-- The reasons for rejecting an operand. -/
def ParseWhy.ofOperand : ParseWhy → Bool
  | .missingArg | .badUint64 | .badUint8 | .badInt8 | .badField | .badBytes | .badAddr | .missingQuotes => true
  | _ => false

/-- Why a `fail` outcome is all right: one more diagnostic, at a token of the line. -/
structure Failed (c d : LineCtx) : Prop where
  keeps : Keeps c d
  refs : d.refs = c.refs
  diag : ∃ why t, why.ofOperand = true ∧ t ∈ c.ts ∧ d.diag = c.diag ++ [parseDiag why t]

/-- A read that ends normally. -/
structure Read (c d : LineCtx) : Prop where
  keeps : Keeps c d
  refs : d.refs = c.refs
  diag : d.diag = c.diag

theorem Read.refl (c : LineCtx) : Read c c := ⟨.refl c, rfl, rfl⟩

theorem Read.trans {a b c : LineCtx} (h1 : Read a b) (h2 : Read b c) : Read a c :=
  ⟨h1.keeps.trans h2.keeps, h2.refs.trans h1.refs, h2.diag.trans h1.diag⟩

theorem Read.failed {a b c : LineCtx} (h1 : Read a b) (h2 : Failed b c) : Failed a c := by
  obtain ⟨why, t, h3, h4, h5⟩ := h2.diag
  exact ⟨h1.keeps.trans h2.keeps, h2.refs.trans h1.refs, why, t, h3, h1.keeps.ts ▸ h4,
    by rw [h5, h1.diag]⟩

/-- `OutOk c vp post out`: the outcome of a read that started at `c`. -/
def OutOk {α : Type} (c : LineCtx) (vp : α → Prop) (post : LineCtx → Prop) : Out α → Prop
  | .ok a d => Read c d ∧ post d ∧ vp a
  | .fail d => Failed c d
  | .crash => False

/-- `Reads pre m vp post`: from a context satisfying `pre`, `m` reads without crashing and, if it
does not fail, gives a value with `vp` and a context with `post`. -/
def Reads {α : Type} (pre : LineCtx → Prop) (m : P α) (vp : α → Prop) (post : LineCtx → Prop) :
    Prop := ∀ c, pre c → OutOk c vp post (m c)

theorem P.bind_apply {α β : Type} (m : P α) (f : α → P β) (c : LineCtx) :
    (m >>= f) c = match m c with
      | .ok a d => f a d
      | .fail d => .fail d
      | .crash => .crash := rfl

theorem P.pure_apply {α : Type} (a : α) (c : LineCtx) : (Pure.pure a : P α) c = .ok a c := rfl

theorem Reads.bind {α β : Type} {pre mid post : LineCtx → Prop} {m : P α} {f : α → P β}
    {vp : α → Prop} {vq : β → Prop} (h1 : Reads pre m vp mid)
    (h2 : ∀ a, vp a → Reads mid (f a) vq post) : Reads pre (m >>= f) vq post := by
  intro c hc
  have h := h1 c hc
  rw [P.bind_apply]
  cases hm : m c with
  | ok a d =>
    rw [hm] at h
    have h3 := h2 a h.2.2 d h.2.1
    show OutOk c vq post (f a d)
    cases hf : f a d with
    | ok b e => rw [hf] at h3; exact ⟨h.1.trans h3.1, h3.2⟩
    | fail e => rw [hf] at h3; exact h.1.failed h3
    | crash => rw [hf] at h3; exact h3
  | fail d => rw [hm] at h; exact h
  | crash => rw [hm] at h; exact h

theorem Reads.pure {α : Type} {pre : LineCtx → Prop} {a : α} {vp : α → Prop} (h : vp a) :
    Reads pre (Pure.pure a : P α) vp pre :=
  fun c hc => ⟨.refl c, hc, h⟩

theorem Reads.weaken {α : Type} {pre pre' post post' : LineCtx → Prop} {m : P α}
    {vp vq : α → Prop} (h : Reads pre m vp post) (h1 : ∀ c, pre' c → pre c)
    (h2 : ∀ c, post c → post' c) (h3 : ∀ a, vp a → vq a) : Reads pre' m vq post' := by
  intro c hc
  have := h c (h1 c hc)
  cases hm : m c with
  | ok a d => rw [hm] at this; exact ⟨this.1, h2 d this.2.1, h3 a this.2.2⟩
  | fail d => rw [hm] at this; exact this
  | crash => rw [hm] at this; exact this

theorem reads_text : Reads AtTok P.text (fun a => a ≠ []) AtTok :=
  fun c hc => ⟨.refl c, hc, hc.text_ne⟩

theorem reads_version : Reads AtTok P.version (fun _ => True) AtTok :=
  fun c hc => ⟨.refl c, hc, trivial⟩

theorem scan_cases (c : LineCtx) (hc : Mid c) :
    (∃ d, P.scan c = .ok true d ∧ Read c d ∧ AtTok d ∧ d.i = c.i + 1) ∨
    (∃ d, P.scan c = .ok false d ∧ Read c d ∧ Mid d ∧ d.i = c.ts.length + 1) := by
  have h1 := hc.one; have h2 := hc.bound
  unfold P.scan
  by_cases h : c.i ≤ c.ts.length
  · rw [if_pos h]
    have hr : Read c { c with i := c.i + 1 } :=
      ⟨⟨rfl, rfl, rfl, rfl, Nat.le_succ _, .refl _ _, .refl _ _, .refl _ _, rfl⟩, rfl, rfl⟩
    have hm : Mid { c with i := c.i + 1 } :=
      ⟨by show 1 ≤ c.i + 1; omega, by show c.i + 1 ≤ c.ts.length + 1; omega, hc.ne, hc.text⟩
    by_cases h' : c.i + 1 ≤ c.ts.length
    · left
      exact ⟨_, by simp [h'], hr, ⟨hm, h'⟩, rfl⟩
    · right
      exact ⟨_, by simp [h'], hr, hm, by show c.i + 1 = c.ts.length + 1; omega⟩
  · rw [if_neg h]
    exact .inr ⟨c, rfl, .refl c, hc, by omega⟩

theorem reads_ifScan {α : Type} {m k : P α} {vp : α → Prop} {post : LineCtx → Prop}
    (hm : Reads AtTok m vp post) (hk : Reads Mid k vp post) :
    Reads Mid (P.scan >>= fun ok => if ok = true then m else k) vp post := by
  intro c hc
  rw [P.bind_apply]
  rcases scan_cases c hc with ⟨d, h1, h2, h3, -⟩ | ⟨d, h1, h2, h3, -⟩
  · rw [h1]
    have := hm d h3
    simp only [if_true]
    cases he : m d with
    | ok a e => rw [he] at this; exact ⟨h2.trans this.1, this.2⟩
    | fail e => rw [he] at this; exact h2.failed this
    | crash => rw [he] at this; exact this
  · rw [h1]
    have := hk d h3
    simp only [Bool.false_eq_true, if_false]
    cases he : k d with
    | ok a e => rw [he] at this; exact ⟨h2.trans this.1, this.2⟩
    | fail e => rw [he] at this; exact h2.failed this
    | crash => rw [he] at this; exact this

theorem failed_at {c : LineCtx} (why : ParseWhy) (hw : why.ofOperand = true) {t : Token}
    (ht : t ∈ c.ts) : Failed c { c with diag := c.diag ++ [parseDiag why t] } :=
  ⟨⟨rfl, rfl, rfl, rfl, Nat.le_refl _, .refl _ _, .refl _ _, .refl _ _, rfl⟩, rfl, why, t, hw, ht, rfl⟩

theorem reads_failCurr {α : Type} {vp : α → Prop} {post : LineCtx → Prop} (why : ParseWhy)
    (hw : why.ofOperand = true) : Reads AtTok (P.failCurr why : P α) vp post :=
  fun _ hc => failed_at why hw hc.curr_mem

theorem reads_orFail {α : Type} (r : Option α) (why : ParseWhy) (hw : why.ofOperand = true) :
    Reads AtTok (P.orFail r why) (fun a => r = some a) AtTok := by
  cases r with
  | none => exact reads_failCurr why hw
  | some a => exact Reads.pure rfl

theorem reads_addNum : Reads AtTok P.addNum (fun _ => True) AtTok := fun _ hc =>
  ⟨⟨⟨rfl, rfl, rfl, rfl, Nat.le_refl _, .snoc _ hc.curr_mem, .refl _ _, .refl _ _, rfl⟩, rfl, rfl⟩,
    ⟨⟨hc.one, hc.bound, hc.ne, hc.text⟩, hc.tok⟩, trivial⟩

theorem reads_addStr : Reads AtTok P.addStr (fun _ => True) AtTok := fun _ hc =>
  ⟨⟨⟨rfl, rfl, rfl, rfl, Nat.le_refl _, .refl _ _, .snoc _ hc.curr_mem, .refl _ _, rfl⟩, rfl, rfl⟩,
    ⟨⟨hc.one, hc.bound, hc.ne, hc.text⟩, hc.tok⟩, trivial⟩

theorem reads_addKey : Reads AtTok P.addKey (fun _ => True) AtTok := fun _ hc =>
  ⟨⟨⟨rfl, rfl, rfl, rfl, Nat.le_refl _, .refl _ _, .refl _ _, .snoc _ hc.curr_mem, rfl⟩, rfl, rfl⟩,
    ⟨⟨hc.one, hc.bound, hc.ne, hc.text⟩, hc.tok⟩, trivial⟩

theorem prev_mem {c : LineCtx} (hc : Mid c) (h : 2 ≤ c.i) : c.prev ∈ c.ts := by
  have h2 := hc.bound
  unfold LineCtx.prev
  rw [if_pos (by omega), List.getD_eq_getElem?_getD, List.getElem?_eq_getElem (by omega)]
  exact List.getElem_mem _

theorem reads_mustReadArg : Reads Mid P.mustReadArg (fun _ => True) AtTok := by
  intro c hc
  have hlen : 0 < c.ts.length := List.length_pos_iff.2 hc.ne
  unfold P.mustReadArg
  rw [P.bind_apply]
  rcases scan_cases c hc with ⟨d, h1, h2, h3, -⟩ | ⟨d, h1, h2, h3, h4⟩
  · rw [h1]; exact ⟨h2, h3, trivial⟩
  · rw [h1]
    refine h2.failed ?_
    exact failed_at (t := LineCtx.prev d) .missingArg (by decide) (prev_mem h3 (by omega))

theorem reads_mustRead : Reads Mid P.mustRead (fun a => a ≠ []) AtTok :=
  reads_mustReadArg.bind (fun _ _ => reads_text)

/-- `do let v ← orFail (r (← text)) why; addNum; pure v`. -/
theorem reads_num {α : Type} (r : Bytes → Option α) (why : ParseWhy) (hw : why.ofOperand = true) :
    Reads AtTok (do
      let v ← P.orFail (r (← P.text)) why
      P.addNum
      Pure.pure v) (fun a => ∃ s, r s = some a) AtTok :=
  reads_text.bind fun s _ => (reads_orFail (r s) why hw).bind fun _ hv =>
    reads_addNum.bind fun _ _ => Reads.pure ⟨s, hv⟩

theorem reads_parseUint64 : Reads AtTok P.parseUint64 (fun a => a < 2 ^ 64) AtTok :=
  (reads_num readInt .badUint64 (by decide)).weaken (fun _ h => h) (fun _ h => h)
    (fun a ⟨s, h⟩ => ((parseUint0_iff 64 (Nat.le_refl _) s a).1 h).2)

theorem readUint8_lt {s : Bytes} {a : Nat} (h : readUint8 s = some a) : a < 256 := by
  obtain ⟨_, ds, _, _, h⟩ := (parseUintBase_iff 10 8 (by decide) (by decide) (by decide) s a).1 h
  exact h

theorem reads_parseUint8 : Reads AtTok P.parseUint8 (fun a => a < 256) AtTok :=
  (reads_num readUint8 .badUint8 (by decide)).weaken (fun _ h => h) (fun _ h => h)
    (fun _ ⟨_, h⟩ => readUint8_lt h)

theorem reads_mustReadUint8 : Reads Mid P.mustReadUint8 (fun a => a < 256) AtTok :=
  reads_mustReadArg.bind (fun _ _ => reads_parseUint8)

theorem AtTok.mid {c : LineCtx} (h : AtTok c) : Mid c := h.toMid

theorem reads_maybeReadUint8 : Reads Mid P.maybeReadUint8 (fun a => ∀ n ∈ a, n < 256) Mid := by
  refine reads_ifScan (m := P.parseUint8 >>= fun v => Pure.pure (some v)) ?_ ?_
  · refine reads_parseUint8.bind fun v hv => ?_
    exact (Reads.pure (vp := fun a => ∀ n ∈ a, n < 256) (pre := AtTok) (by simpa using hv)).weaken
      (fun _ h => h) (fun _ h => h.mid) (fun _ h => h)
  · exact Reads.pure (by simp)

theorem reads_mustReadInt : Reads Mid P.mustReadInt (fun a => a < 2 ^ 64) AtTok :=
  reads_mustReadArg.bind (fun _ _ => reads_parseUint64)

theorem reads_mustReadConstInt : Reads Mid P.mustReadConstInt (fun a => ∃ s, readConstInt s = some a)
    AtTok :=
  reads_mustReadArg.bind (fun _ _ => reads_num readConstInt .badUint64 (by decide))

theorem reads_mustReadInt8 : Reads Mid P.mustReadInt8 (fun a => ∃ s, readInt8 s = some a) AtTok :=
  reads_mustReadArg.bind (fun _ _ => reads_num readInt8 .badInt8 (by decide))

theorem reads_ite {α : Type} {p : Prop} [Decidable p] {a b : P α} {pre post : LineCtx → Prop}
    {vp : α → Prop} (h1 : p → Reads pre a vp post) (h2 : ¬ p → Reads pre b vp post) :
    Reads pre (if p then a else b) vp post := by
  by_cases h : p
  · rw [if_pos h]; exact h1 h
  · rw [if_neg h]; exact h2 h

theorem reads_mustReadField (r : FieldReader) : Reads Mid (P.mustReadField r)
    (fun a => ∃ v s b, P.readFieldWith r v s = some ⟨a, b⟩) AtTok := by
  unfold P.mustReadField
  refine reads_mustReadArg.bind fun _ _ => reads_version.bind fun v _ => reads_text.bind fun s _ =>
    (reads_orFail (P.readFieldWith r v s) .badField (by decide)).bind fun f hf => ?_
  dsimp only
  exact reads_ite (fun _ => reads_addStr.bind fun _ _ => Reads.pure ⟨v, s, f.isconst, hf⟩)
    (fun _ => reads_addNum.bind fun _ _ => Reads.pure ⟨v, s, f.isconst, hf⟩)

theorem reads_mustReadAddr (addrOk : Bytes → Bool) :
    Reads Mid (P.mustReadAddr addrOk) (fun a => addrOk a = true) AtTok := by
  unfold P.mustReadAddr
  refine reads_mustRead.bind fun v _ => ?_
  dsimp only
  exact reads_ite (fun h => reads_addStr.bind fun _ _ => Reads.pure h)
    (fun _ => Reads.bind (vp := fun _ => False) (mid := AtTok) (reads_failCurr _ (by decide))
      fun _ h => h.elim)

theorem reads_crash_of_false {α : Type} {pre post : LineCtx → Prop} {vp : α → Prop} {m : P α}
    (h : False) : Reads pre m vp post := h.elim

theorem reads_mustReadSignature : Reads Mid P.mustReadSignature (fun a => a ≠ []) AtTok := by
  unfold P.mustReadSignature
  refine reads_mustReadArg.bind fun _ _ => reads_text.bind fun s hs => ?_
  cases s with
  | nil => exact absurd rfl hs
  | cons x t =>
    rw [List.head?_cons, List.getLast?_cons]
    dsimp only
    exact reads_ite (fun _ => Reads.bind (vp := fun _ => False) (mid := AtTok)
      (reads_failCurr _ (by decide)) fun _ h => h.elim)
      (fun _ => reads_addStr.bind fun _ _ => reads_text)

theorem parseStringLiteral_no_crash (s : Bytes) (h : s ≠ []) : parseStringLiteral s ≠ .crash := by
  unfold parseStringLiteral
  cases s with
  | nil => exact absurd rfl h
  | cons c t =>
    rw [List.head?_cons, List.getLast?_cons]
    simp only
    split
    · simp
    · split <;> simp

/-- `orFail r why`, then record the current token. -/
theorem reads_decode {r : Option Bytes} :
    Reads AtTok (do let v ← P.orFail r .badBytes; P.addStr; pure v) (fun _ => True) AtTok :=
  (reads_orFail r .badBytes (by decide)).bind fun _ _ => reads_addStr.bind fun _ _ => Reads.pure trivial

theorem reads_parseBytes : Reads AtTok P.parseBytes (fun _ => True) AtTok := by
  unfold P.parseBytes
  refine reads_text.bind fun arg harg => ?_
  refine reads_ite (fun _ => ?_) fun _ => reads_ite (fun _ => ?_) fun _ => reads_ite (fun _ => ?_)
    fun _ => reads_ite (fun _ => ?_) fun _ => reads_ite (fun _ => ?_) fun _ =>
      reads_ite (fun _ => ?_) (fun _ => reads_failCurr _ (by decide))
  · exact (reads_orFail _ .badBytes (by decide)).bind fun _ _ => reads_decode
  · exact (reads_orFail _ .badBytes (by decide)).bind fun _ _ => reads_decode
  · exact reads_decode
  · exact reads_addKey.bind fun _ _ => (reads_mustRead.weaken (fun _ h => AtTok.mid h)
      (fun _ h => h) (fun _ h => h)).bind fun _ _ => reads_decode
  · exact reads_addKey.bind fun _ _ => (reads_mustRead.weaken (fun _ h => AtTok.mid h)
      (fun _ h => h) (fun _ h => h)).bind fun _ _ => reads_decode
  · cases h : parseStringLiteral arg with
    | ok v => exact reads_addStr.bind fun _ _ => Reads.pure trivial
    | err => exact reads_failCurr _ (by decide)
    | crash => exact absurd h (parseStringLiteral_no_crash _ harg)

theorem reads_mustReadBytes : Reads Mid P.mustReadBytes (fun _ => True) AtTok :=
  reads_mustReadArg.bind (fun _ _ => reads_parseBytes)

theorem reads_scanLoop {α : Type} {body : P α} {vp : α → Prop} (h : Reads AtTok body vp AtTok)
    (fuel : Nat) : Reads Mid (P.scanLoop body fuel) (fun as => ∀ a ∈ as, vp a) Mid := by
  induction fuel with
  | zero => exact Reads.pure (by simp)
  | succ n ih =>
    refine reads_ifScan (m := body >>= fun a => P.scanLoop body n >>= fun as => pure (a :: as)) ?_
      (Reads.pure (by simp))
    refine h.bind fun a ha => (ih.weaken (fun _ h => AtTok.mid h) (fun _ h => h)
      (fun _ h => h)).bind fun as has => ?_
    exact Reads.pure (by simpa using ⟨ha, has⟩)

theorem reads_readArray {α : Type} {body : P α} {vp : α → Prop} (h : Reads AtTok body vp AtTok) :
    Reads Mid (P.readArray body) (fun as => ∀ a ∈ as, vp a) Mid :=
  fun c hc => reads_scanLoop h (c.ts.length + 1) c hc

theorem reads_readUint64Array : Reads Mid P.readUint64Array (fun as => ∀ a ∈ as, a < 2 ^ 64) Mid :=
  reads_readArray (reads_parseUint64.bind fun _ h => reads_addNum.bind fun _ _ => Reads.pure h)

theorem reads_readBytesArray : Reads Mid P.readBytesArray (fun _ => True) Mid :=
  (reads_readArray reads_parseBytes).weaken (fun _ h => h) (fun _ h => h) (fun _ _ => trivial)

/-! ## Emitting -/

/-- The instruction a shape emits, and the ranges of its immediates. -/
def EmitOk (addrOk : Bytes → Bool) : Shape → Op → Prop
  | .plain k, o => o = .plain k
  | .u8 k, o => ∃ n < 256, o = .u8 k n
  | .u8u8 k, o => ∃ m < 256, ∃ n < 256, o = .u8u8 k m n
  | .i8 k, o => ∃ i s, readInt8 s = some i ∧ o = .i8 k i
  | .field r k, o => ∃ f v s b, P.readFieldWith r v s = some ⟨f, b⟩ ∧ o = .field k f
  | .fieldIdx k, o => ∃ f v s b, P.readFieldWith (.txn .txna) v s = some ⟨f, b⟩ ∧
      ∃ i < 256, o = .fieldIdx k f i
  | .fieldOptIdx k k', o => ∃ f v s b, P.readFieldWith (.txn .txn) v s = some ⟨f, b⟩ ∧
      (o = .field k f ∨ ∃ i < 256, o = .fieldIdx k' f i)
  | .groupField r k, o => ∃ t < 256, ∃ f v s b, P.readFieldWith (.txn r) v s = some ⟨f, b⟩ ∧
      o = .groupField k t f
  | .gtxn, o => ∃ t < 256, ∃ f v s b, P.readFieldWith (.txn .txn) v s = some ⟨f, b⟩ ∧
      (o = .groupField .gtxn t f ∨ ∃ i < 256, o = .groupFieldIdx .gtxna t f i)
  | .gtxna, o => ∃ t < 256, ∃ f v s b, P.readFieldWith (.txn .txna) v s = some ⟨f, b⟩ ∧
      ∃ i < 256, o = .groupFieldIdx .gtxna t f i
  | .gitxna, o => ∃ t < 2 ^ 64, ∃ f v s b, P.readFieldWith (.txn .txna) v s = some ⟨f, b⟩ ∧
      ∃ i < 256, o = .groupFieldIdx .gitxna (t % 256) f i
  | .int, o => ∃ n s, readConstInt s = some n ∧ o = .int n
  | .pushint, o => ∃ n < 2 ^ 64, o = .pushint n
  | .byte, o => ∃ v, o = .byte v
  | .pushbytes, o => ∃ v, o = .pushbytes v
  | .addr, o => ∃ a, addrOk a = true ∧ o = .addr a
  | .method, o => ∃ v, v ≠ [] ∧ o = .method v
  | .intcblock, o => ∃ vs, (∀ v ∈ vs, v < 2 ^ 64) ∧ o = .intcblock vs
  | .pushints, o => ∃ vs, (∀ v ∈ vs, v < 2 ^ 64) ∧ o = .pushints vs
  | .bytecblock, o => ∃ vs, o = .bytecblock vs
  | .pushbytess, o => ∃ vs, o = .pushbytess vs
  | .branch k, o => ∃ l, o = .branch k l
  | .switch, o => ∃ ls, o = .switch ls
  | .match_, o => ∃ ls, o = .match_ ls
  | .replace, o => o = .plain .replace3 ∨ ∃ n < 256, o = .u8 .replace2 n
  | .extract, o => o = .plain .extract3 ∨ ∃ m < 256, ∃ n < 256, o = .u8u8 .extract m n

/-- The tokens a shape reads as labels, from token number `i` on. -/
def labelTokens (sh : Shape) (ts : List Token) (i : Nat) : List Token :=
  match sh with
  | .branch _ => (ts.drop i).take 1
  | .switch => ts.drop i
  | .match_ => ts.drop i
  | _ => []

/-- Shapes without label operands. -/
def Shape.noLabels : Shape → Bool
  | .branch _ => false
  | .switch => false
  | .match_ => false
  | _ => true

theorem labelTokens_noLabels {sh : Shape} (h : sh.noLabels = true) (ts : List Token) (i : Nat) :
    labelTokens sh ts i = [] := by
  cases sh <;> first | rfl | cases h

/-- What a parse function has done when it ends normally. -/
structure Emitted (addrOk : Bytes → Bool) (sh : Shape) (c d : LineCtx) : Prop where
  ts : d.ts = c.ts
  version : d.version = c.version
  vtok : d.vtok = c.vtok
  le : c.i ≤ d.i
  bound : d.i ≤ d.ts.length + 1
  nums : Grew c.ts c.nums d.nums
  strs : Grew c.ts c.strs d.strs
  keys : Grew c.ts c.keys d.keys
  mcrs : d.mcrs = c.mcrs
  diag : d.diag = c.diag
  refs : d.refs = c.refs ++ labelTokens sh c.ts c.i
  op : ∃ o, EmitOk addrOk sh o ∧ d.ops = c.ops ++ [o] ∧
    o.labels = (labelTokens sh c.ts c.i).map Token.v

def EmOk (addrOk : Bytes → Bool) (sh : Shape) (c : LineCtx) : Out Unit → Prop
  | .ok _ d => Emitted addrOk sh c d
  | .fail d => Failed c d ∧ labelTokens sh c.ts c.i = []
  | .crash => False

/-- From a context satisfying `pre`, `m` does not crash and, if it does not fail, emits one
instruction of the shape `sh`. -/
def Emits (addrOk : Bytes → Bool) (sh : Shape) (pre : LineCtx → Prop) (m : P Unit) : Prop :=
  ∀ c, pre c → EmOk addrOk sh c (m c)

theorem Emits.bind {addrOk : Bytes → Bool} {sh : Shape} {α : Type} {pre mid : LineCtx → Prop}
    {m : P α} {f : α → P Unit} {vp : α → Prop} (hsh : sh.noLabels = true)
    (h1 : Reads pre m vp mid) (h2 : ∀ a, vp a → Emits addrOk sh mid (f a)) :
    Emits addrOk sh pre (m >>= f) := by
  intro c hc
  have h := h1 c hc
  rw [P.bind_apply]
  cases hm : m c with
  | ok a d =>
    rw [hm] at h
    have h3 := h2 a h.2.2 d h.2.1
    have hk := h.1.keeps
    show EmOk addrOk sh c (f a d)
    cases hf : f a d with
    | ok b e =>
      rw [hf] at h3
      obtain ⟨o, ho1, ho2, ho3⟩ := h3.op
      exact ⟨h3.ts.trans hk.ts, h3.version.trans hk.version, h3.vtok.trans hk.vtok,
        Nat.le_trans hk.le h3.le, h3.bound, hk.nums.trans (hk.ts ▸ h3.nums),
        hk.strs.trans (hk.ts ▸ h3.strs), hk.keys.trans (hk.ts ▸ h3.keys),
        h3.mcrs.trans hk.mcrs, h3.diag.trans h.1.diag,
        by rw [h3.refs, h.1.refs, labelTokens_noLabels hsh, labelTokens_noLabels hsh],
        o, ho1, by rw [ho2, hk.ops],
        by rw [ho3, labelTokens_noLabels hsh, labelTokens_noLabels hsh]⟩
    | fail e => rw [hf] at h3; exact ⟨h.1.failed h3.1, labelTokens_noLabels hsh _ _⟩
    | crash => rw [hf] at h3; exact h3
  | fail d => rw [hm] at h; exact ⟨h, labelTokens_noLabels hsh _ _⟩
  | crash => rw [hm] at h; exact h

theorem Emits.emit {addrOk : Bytes → Bool} {sh : Shape} {pre : LineCtx → Prop} {o : Op}
    (hsh : sh.noLabels = true) (hpre : ∀ c, pre c → Mid c)
    (ho : EmitOk addrOk sh o) (hl : o.labels = []) : Emits addrOk sh pre (P.emit o) :=
  fun c hc => ⟨rfl, rfl, rfl, Nat.le_refl _, (hpre c hc).bound, .refl _ _, .refl _ _, .refl _ _, rfl,
    rfl, by rw [labelTokens_noLabels hsh]; simp, o, ho, rfl, by rw [labelTokens_noLabels hsh]; exact hl⟩

theorem Emits.weaken {addrOk : Bytes → Bool} {sh : Shape} {pre pre' : LineCtx → Prop} {m : P Unit}
    (h : Emits addrOk sh pre m) (h1 : ∀ c, pre' c → pre c) : Emits addrOk sh pre' m :=
  fun c hc => h c (h1 c hc)

theorem mid_id : ∀ c : LineCtx, Mid c → Mid c := fun _ h => h

theorem atTok_mid : ∀ c : LineCtx, AtTok c → Mid c := fun _ h => h.mid

theorem emits_branch (addrOk : Bytes → Bool) (k : BranchOp) :
    Emits addrOk (.branch k) Mid (P.parseShape addrOk (.branch k)) := by
  intro c hc
  have h1 := hc.one
  have hlen : 0 < c.ts.length := List.length_pos_iff.2 hc.ne
  show EmOk addrOk (.branch k) c ((P.mustReadLabel >>= fun l => P.emit (.branch k l)) c)
  unfold P.mustReadLabel P.mustReadArg
  rw [P.bind_apply, P.bind_apply, P.bind_apply]
  rcases scan_cases c hc with ⟨d, h1, h2, h3, h4⟩ | ⟨d, h1, h2, h3, h4⟩
  · rw [h1]
    have hk := h2.keeps
    have hcur : labelTokens (.branch k) c.ts c.i = [d.curr] := by
      have := h3.curr_eq
      rw [hk.ts, h4] at this
      show (c.ts.drop c.i).take 1 = _
      rw [List.take_one, List.head?_drop]
      simp only [Nat.add_sub_cancel] at this
      rw [this]; rfl
    exact ⟨hk.ts, hk.version, hk.vtok, hk.le, h3.bound, hk.nums, hk.strs, hk.keys, hk.mcrs, h2.diag,
      by rw [hcur, ← h2.refs], .branch k d.curr.v, ⟨_, rfl⟩, by rw [← hk.ops]; rfl,
      by rw [hcur]; rfl⟩
  · rw [h1]
    refine ⟨h2.failed ?_, ?_⟩
    · exact failed_at (t := LineCtx.prev d) .missingArg (by decide) (prev_mem h3 (by omega))
    · show (c.ts.drop c.i).take 1 = []
      have : c.ts.length ≤ c.i := by
        unfold P.scan at h1
        by_cases hi : c.i ≤ c.ts.length
        · rw [if_pos hi] at h1
          injection h1 with h5 h6
          have := of_decide_eq_false h5
          omega
        · omega
      rw [List.drop_eq_nil_of_le this]; rfl

/-- The loop of `readLabelsArray` reads all remaining tokens. -/
theorem labels_loop (fuel : Nat) : ∀ c : LineCtx, 1 ≤ c.i → c.ts.length + 1 ≤ c.i + fuel →
    ∃ i, c.i ≤ i ∧ (c.i ≤ c.ts.length + 1 → i = c.ts.length + 1) ∧
    P.scanLoop (do let t ← P.text; P.addRef; pure t : P Bytes) fuel c =
      .ok ((c.ts.drop c.i).map Token.v)
        { c with i := i, refs := c.refs ++ c.ts.drop c.i } := by
  induction fuel with
  | zero =>
    intro c h1 h
    refine ⟨c.i, Nat.le_refl _, fun _ => by omega, ?_⟩
    rw [List.drop_eq_nil_of_le (by omega)]
    simp [P.scanLoop, P.pure_apply]
  | succ n ih =>
    intro c h1 h
    rw [P.scanLoop]
    simp only [P.bind_apply, P.scan]
    by_cases hi : c.i ≤ c.ts.length
    · simp only [if_pos hi]
      by_cases hi' : c.i + 1 ≤ c.ts.length
      · simp only [hi', decide_true, if_true]
        let c' : LineCtx := { c with i := c.i + 1 }
        have hd : c.ts.drop c.i = c'.curr :: c.ts.drop (c.i + 1) := by
          rw [List.drop_eq_getElem_cons (by omega)]
          congr 1
          show _ = LineCtx.curr _
          unfold LineCtx.curr
          rw [if_pos ⟨Nat.succ_pos _, hi'⟩]
          show _ = c.ts.getD c.i .zero
          rw [List.getD_eq_getElem?_getD, List.getElem?_eq_getElem (by omega)]; rfl
        obtain ⟨i, hi1, hi2, hi3⟩ := ih { c' with refs := c.refs ++ [c'.curr] }
          (by show 1 ≤ c.i + 1; omega) (by show c.ts.length + 1 ≤ c.i + 1 + n; omega)
        refine ⟨i, by have : c.i + 1 ≤ i := hi1; omega, fun _ => hi2 (by show c.i + 1 ≤ _ + 1; exact Nat.le_trans hi' (Nat.le_succ _)), ?_⟩
        simp only [P.bind_apply, P.text, P.addRef, P.pure_apply]
        have hi3' := hi3
        simp only [c'] at hi3' hd ⊢
        rw [hi3', hd]
        simp [LineCtx.text]
      · simp only [hi', decide_false]
        refine ⟨c.i + 1, Nat.le_succ _, fun _ => by omega, ?_⟩
        rw [List.drop_eq_nil_of_le (by omega)]
        simp [P.pure_apply]
    · simp only [if_neg hi]
      refine ⟨c.i, Nat.le_refl _, fun _ => by omega, ?_⟩
      rw [List.drop_eq_nil_of_le (by omega)]
      simp [P.pure_apply]

theorem emits_labels (addrOk : Bytes → Bool) (sh : Shape) (mk : List Bytes → Op)
    (h1 : ∀ ts i, labelTokens sh ts i = ts.drop i) (h2 : ∀ ls, EmitOk addrOk sh (mk ls))
    (h3 : ∀ ls, (mk ls).labels = ls) :
    Emits addrOk sh Mid (P.readLabelsArray >>= fun ls => P.emit (mk ls)) := by
  intro c hc
  rw [P.bind_apply]
  obtain ⟨i, hi1, hi2, hi3⟩ := labels_loop (c.ts.length + 1) c hc.one (by omega)
  unfold P.readLabelsArray P.readArray
  rw [hi3]
  exact ⟨rfl, rfl, rfl, hi1, by have := hi2 hc.bound; show i ≤ c.ts.length + 1; omega, .refl _ _,
    .refl _ _, .refl _ _, rfl, rfl, by rw [h1], _, h2 _, rfl, by rw [h1, h3]⟩

theorem emits_parseShape (addrOk : Bytes → Bool) (sh : Shape) :
    Emits addrOk sh Mid (P.parseShape addrOk sh) := by
  have u8 := reads_mustReadUint8
  have u8' := reads_mustReadUint8.weaken atTok_mid (fun _ h => h) (fun _ h => h)
  have fld := fun r => reads_mustReadField r
  have fld' := fun r => (reads_mustReadField r).weaken atTok_mid (fun _ h => h) (fun _ h => h)
  have opt := reads_maybeReadUint8
  have opt' := reads_maybeReadUint8.weaken atTok_mid (fun _ h => h) (fun _ h => h)
  cases sh with
  | plain k =>
    exact Emits.emit rfl mid_id rfl rfl
  | u8 k =>
    exact Emits.bind rfl u8 fun n hn => .emit rfl atTok_mid ⟨n, hn, rfl⟩ rfl
  | u8u8 k =>
    exact Emits.bind rfl u8 fun m hm => Emits.bind rfl u8' fun n hn =>
      .emit rfl atTok_mid ⟨m, hm, n, hn, rfl⟩ rfl
  | i8 k =>
    exact Emits.bind rfl reads_mustReadInt8 fun i ⟨s, hs⟩ =>
      .emit rfl atTok_mid ⟨i, s, hs, rfl⟩ rfl
  | field r k =>
    exact Emits.bind rfl (fld r) fun f ⟨v, s, b, h⟩ =>
      .emit rfl atTok_mid ⟨f, v, s, b, h, rfl⟩ rfl
  | fieldIdx k =>
    exact Emits.bind rfl (fld _) fun f ⟨v, s, b, h⟩ => Emits.bind rfl u8' fun i hi =>
      .emit rfl atTok_mid ⟨f, v, s, b, h, i, hi, rfl⟩ rfl
  | fieldOptIdx k k' =>
    refine Emits.bind rfl (fld _) fun f ⟨v, s, b, h⟩ => Emits.bind rfl opt' fun i hi => ?_
    cases i with
    | none =>
    exact .emit rfl mid_id ⟨f, v, s, b, h, .inl rfl⟩ rfl
    | some i =>
    exact .emit rfl mid_id ⟨f, v, s, b, h, .inr ⟨i, hi i rfl, rfl⟩⟩ rfl
  | groupField r k =>
    exact Emits.bind rfl u8 fun t ht => Emits.bind rfl (fld' _) fun f ⟨v, s, b, h⟩ =>
      .emit rfl atTok_mid ⟨t, ht, f, v, s, b, h, rfl⟩ rfl
  | gtxn =>
    refine Emits.bind rfl u8 fun t ht => Emits.bind rfl (fld' _) fun f ⟨v, s, b, h⟩ =>
      Emits.bind rfl opt' fun i hi => ?_
    cases i with
    | none =>
    exact .emit rfl mid_id ⟨t, ht, f, v, s, b, h, .inl rfl⟩ rfl
    | some i =>
    exact .emit rfl mid_id ⟨t, ht, f, v, s, b, h, .inr ⟨i, hi i rfl, rfl⟩⟩ rfl
  | gtxna =>
    exact Emits.bind rfl u8 fun t ht => Emits.bind rfl (fld' _) fun f ⟨v, s, b, h⟩ =>
      Emits.bind rfl u8' fun i hi => .emit rfl atTok_mid ⟨t, ht, f, v, s, b, h, i, hi, rfl⟩ rfl
  | gitxna =>
    exact Emits.bind rfl reads_mustReadInt fun t ht => Emits.bind rfl (fld' _)
      fun f ⟨v, s, b, h⟩ => Emits.bind rfl u8' fun i hi =>
        .emit rfl atTok_mid ⟨t, ht, f, v, s, b, h, i, hi, rfl⟩ rfl
  | int =>
    exact Emits.bind rfl reads_mustReadConstInt fun n ⟨s, hs⟩ =>
      .emit rfl atTok_mid ⟨n, s, hs, rfl⟩ rfl
  | pushint =>
    exact Emits.bind rfl reads_mustReadInt fun n hn => .emit rfl atTok_mid ⟨n, hn, rfl⟩ rfl
  | byte =>
    exact Emits.bind rfl reads_mustReadBytes fun v _ => .emit rfl atTok_mid ⟨v, rfl⟩ rfl
  | pushbytes =>
    exact Emits.bind rfl reads_mustReadBytes fun v _ => .emit rfl atTok_mid ⟨v, rfl⟩ rfl
  | addr =>
    exact Emits.bind rfl (reads_mustReadAddr addrOk) fun a ha =>
      .emit rfl atTok_mid ⟨a, ha, rfl⟩ rfl
  | method =>
    exact Emits.bind rfl reads_mustReadSignature fun v hv =>
      .emit rfl atTok_mid ⟨v, hv, rfl⟩ rfl
  | intcblock =>
    exact Emits.bind rfl reads_readUint64Array fun v hv =>
      .emit rfl mid_id ⟨v, hv, rfl⟩ rfl
  | pushints =>
    exact Emits.bind rfl reads_readUint64Array fun v hv =>
      .emit rfl mid_id ⟨v, hv, rfl⟩ rfl
  | bytecblock =>
    exact Emits.bind rfl reads_readBytesArray fun v _ => .emit rfl mid_id ⟨v, rfl⟩ rfl
  | pushbytess =>
    exact Emits.bind rfl reads_readBytesArray fun v _ => .emit rfl mid_id ⟨v, rfl⟩ rfl
  | branch k =>
    exact emits_branch addrOk k
  | switch =>
    exact emits_labels addrOk .switch .switch (fun _ _ => rfl) (fun _ => ⟨_, rfl⟩) (fun _ => rfl)
  | match_ =>
    exact emits_labels addrOk .match_ .match_ (fun _ _ => rfl) (fun _ => ⟨_, rfl⟩) (fun _ => rfl)
  | replace =>
    refine Emits.bind rfl opt fun i hi => ?_
    cases i with
    | none =>
    exact .emit rfl mid_id (.inl rfl) rfl
    | some i =>
    exact .emit rfl mid_id (.inr ⟨i, hi i rfl, rfl⟩) rfl
  | extract =>
    refine Emits.bind rfl opt fun i hi => ?_
    cases i with
    | none =>
    exact .emit rfl mid_id (.inl rfl) rfl
    | some i =>
    exact Emits.bind rfl u8 fun n hn =>
        .emit rfl atTok_mid (.inr ⟨i, hi i rfl, n, hn, rfl⟩) rfl

end Teal
