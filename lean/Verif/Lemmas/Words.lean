import Verif.Lemmas.ProcessLine

/-!
# Reading a line as reading a list of words

The parse functions walk over tokens with an index and append to slices of the context.  Here
each of them is related to a function of the words that are left and the version in force.
-/

namespace Teal
open P

/-- The words that are left. -/
def LineCtx.left (c : LineCtx) : List Bytes := (c.ts.drop c.i).map Token.v

/-- A function of the version and the words that are left: a value and the words behind, or
failure. -/
abbrev Reader (α : Type) : Type := Nat → List Bytes → Option (α × List Bytes)

namespace Reader

/-- One word. -/
def word {α : Type} (r : Nat → Bytes → Option α) : Reader α := fun v ws =>
  match ws with
  | [] => none
  | w :: ws => (r v w).map fun a => (a, ws)

/-- A word if there is one. -/
def opt {α : Type} (r : Bytes → Option α) : Reader (Option α) := fun _ ws =>
  match ws with
  | [] => some (none, [])
  | w :: ws => (r w).map fun a => (some a, ws)

/-- One after the other. -/
def bind {α β : Type} (m : Reader α) (f : α → Reader β) : Reader β := fun v ws =>
  match m v ws with
  | none => none
  | some (a, ws) => f a v ws

/-- A value that needs no word. -/
def ret {α : Type} (a : α) : Reader α := fun _ ws => some (a, ws)

/-- All words, each read by a function that may take more than one. -/
def many {α : Type} (r : Bytes → List Bytes → Option (α × List Bytes)) : Nat → List Bytes → Option (List α)
  | _, [] => some []
  | 0, _ => none
  | fuel + 1, w :: ws =>
    match r w ws with
    | none => none
    | some (a, ws) => (many r fuel ws).map fun as => a :: as

/-- All words. -/
def all {α : Type} (r : Bytes → List Bytes → Option (α × List Bytes)) : Reader (List α) := fun _ ws =>
  (many r ws.length ws).map fun as => (as, [])

end Reader

/-- A byte constant that starts with the word `arg`. -/
def bytesAt (arg : Bytes) (ws : List Bytes) : Option (Bytes × List Bytes) :=
  if hasPrefix arg b!"base32(" || hasPrefix arg b!"b32(" then
    ((parenBody arg).bind base32DecodeAnyPadding).map fun a => (a, ws)
  else if hasPrefix arg b!"base64(" || hasPrefix arg b!"b64(" then
    ((parenBody arg).bind b64Decode).map fun a => (a, ws)
  else if hasPrefix arg b!"0x" then (hexDecode (arg.drop 2)).map fun a => (a, ws)
  else if arg = b!"base32" ∨ arg = b!"b32" then
    match ws with
    | [] => none
    | w :: ws => (base32DecodeAnyPadding w).map fun a => (a, ws)
  else if arg = b!"base64" ∨ arg = b!"b64" then
    match ws with
    | [] => none
    | w :: ws => (b64Decode w).map fun a => (a, ws)
  else if arg.length > 1 ∧ arg.head? = some chQuote ∧ arg.getLast? = some chQuote then
    match parseStringLiteral arg with
    | .ok val => some (val, ws)
    | .err => none
    | .crash => none
  else none

/-- A byte constant. -/
def Reader.bytes : Reader Bytes := fun _ ws =>
  match ws with
  | [] => none
  | w :: ws => bytesAt w ws

/-- One word read without looking at the version, by a function for arrays. -/
def oneWord {α : Type} (r : Bytes → Option α) (w : Bytes) (ws : List Bytes) : Option (α × List Bytes) :=
  (r w).map fun a => (a, ws)

/-- A word in double quotes. -/
def quotedWord (w : Bytes) : Option Bytes :=
  if w.head? = some chQuote ∧ w.getLast? = some chQuote then some w else none

/-- What `parseShape` reads. -/
def evalShape (addrOk : Bytes → Bool) : Shape → Reader Op :=
  let u8 : Reader Nat := .word fun _ => readUint8
  let u64 : Reader Nat := .word fun _ => readInt
  let fld : FieldReader → Reader Nat := fun r => .word fun v s => (readFieldWith r v s).map (·.field)
  let mu8 : Reader (Option Nat) := .opt readUint8
  fun sh => match sh with
  | .plain k => .ret (.plain k)
  | .u8 k => u8.bind fun n => .ret (.u8 k n)
  | .u8u8 k => u8.bind fun m => u8.bind fun n => .ret (.u8u8 k m n)
  | .i8 k => (Reader.word fun _ => readInt8).bind fun i => .ret (.i8 k i)
  | .field r k => (fld r).bind fun f => .ret (.field k f)
  | .fieldIdx k => (fld (.txn .txna)).bind fun f => u8.bind fun i => .ret (.fieldIdx k f i)
  | .fieldOptIdx k k' => (fld (.txn .txn)).bind fun f => mu8.bind fun i =>
    .ret (match i with
    | some i => .fieldIdx k' f i
    | none => .field k f)
  | .groupField c k => u8.bind fun t => (fld (.txn c)).bind fun f => .ret (.groupField k t f)
  | .gtxn => u8.bind fun t => (fld (.txn .txn)).bind fun f => mu8.bind fun i =>
    .ret (match i with
    | some i => .groupFieldIdx .gtxna t f i
    | none => .groupField .gtxn t f)
  | .gtxna => u8.bind fun t => (fld (.txn .txna)).bind fun f => u8.bind fun i => .ret (.groupFieldIdx .gtxna t f i)
  | .gitxna => u64.bind fun t => (fld (.txn .txna)).bind fun f => u8.bind fun i =>
    .ret (.groupFieldIdx .gitxna (t % 256) f i)
  | .int => (Reader.word fun _ => readConstInt).bind fun v => .ret (.int v)
  | .pushint => u64.bind fun v => .ret (.pushint v)
  | .byte => Reader.bytes.bind fun v => .ret (.byte v)
  | .pushbytes => Reader.bytes.bind fun v => .ret (.pushbytes v)
  | .addr => (Reader.word fun _ w => if addrOk w then some w else none).bind fun v => .ret (.addr v)
  | .method => (Reader.word fun _ => quotedWord).bind fun v => .ret (.method v)
  | .intcblock => (Reader.all (oneWord readInt)).bind fun vs => .ret (.intcblock vs)
  | .pushints => (Reader.all (oneWord readInt)).bind fun vs => .ret (.pushints vs)
  | .bytecblock => (Reader.all bytesAt).bind fun vs => .ret (.bytecblock vs)
  | .pushbytess => (Reader.all bytesAt).bind fun vs => .ret (.pushbytess vs)
  | .branch k => (Reader.word fun _ => some).bind fun l => .ret (.branch k l)
  | .switch => (Reader.all (oneWord some)).bind fun ls => .ret (.switch ls)
  | .match_ => (Reader.all (oneWord some)).bind fun ls => .ret (.match_ ls)
  | .replace => mu8.bind fun n =>
    .ret (match n with
    | none => .plain .replace3
    | some s => .u8 .replace2 s)
  | .extract => mu8.bind fun n =>
    match n with
    | none => .ret (.plain .extract3)
    | some s => u8.bind fun l => .ret (.u8u8 .extract s l)

/-! ## Simulation -/

/-- The outcome of a parse function against that of a function of words. -/
def SimOut {α : Type} (c : LineCtx) (post : LineCtx → Prop) (r : Option (α × List Bytes)) : Out α → Prop
  | .ok a d => r = some (a, d.left) ∧ post d ∧ d.ts = c.ts ∧ d.version = c.version ∧ d.ops = c.ops
  | .fail d => r = none ∧ d.ops = c.ops
  | .crash => False

/-- A parse function that starts between words. -/
def Sim {α : Type} (m : P α) (f : Reader α) : Prop := ∀ c, Mid c → SimOut c Mid (f c.version c.left) (m c)

/-- A parse function that starts at a word. -/
def SimAt {α : Type} (m : P α) (f : Bytes → Nat → List Bytes → Option (α × List Bytes)) : Prop :=
  ∀ c, AtTok c → SimOut c AtTok (f c.text c.version c.left) (m c)

theorem SimOut.mono {α : Type} {c : LineCtx} {post post' : LineCtx → Prop} {r : Option (α × List Bytes)} {o : Out α}
    (h : SimOut c post r o) (hp : ∀ d, post d → post' d) : SimOut c post' r o := by
  cases o with
  | ok a d => exact ⟨h.1, hp d h.2.1, h.2.2⟩
  | fail d => exact h
  | crash => exact h

theorem Sim.bind {α β : Type} {m : P α} {f : Reader α} {g : α → P β} {h : α → Reader β} (h1 : Sim m f)
    (h2 : ∀ a, Sim (g a) (h a)) : Sim (m >>= g) (f.bind h) := by
  intro c hc
  have h3 := h1 c hc
  rw [P.bind_apply]
  unfold Reader.bind
  cases hm : m c with
  | ok a d =>
    rw [hm] at h3
    obtain ⟨h4, h5, h6, h7, h8⟩ := h3
    rw [h4]
    have h9 := h2 a d h5
    rw [h7] at h9
    dsimp only
    cases hg : g a d with
    | ok b e => rw [hg] at h9; exact ⟨h9.1, h9.2.1, h9.2.2.1.trans h6, h9.2.2.2.1.trans h7, h9.2.2.2.2.trans h8⟩
    | fail e => rw [hg] at h9; exact ⟨h9.1, h9.2.trans h8⟩
    | crash => rw [hg] at h9; exact h9
  | fail d => rw [hm] at h3; rw [h3.1]; exact ⟨rfl, h3.2⟩
  | crash => rw [hm] at h3; exact h3

/-- What `Scan` does, in terms of the words left. -/
theorem scan_left (c : LineCtx) (hc : Mid c) :
    (∃ d w, P.scan c = .ok true d ∧ AtTok d ∧ c.left = w :: d.left ∧ d.text = w ∧
      d = { c with i := c.i + 1 }) ∨
    (∃ d, P.scan c = .ok false d ∧ Mid d ∧ c.left = [] ∧ d.left = [] ∧ 2 ≤ d.i ∧
      (d = { c with i := c.i + 1 } ∨ d = c)) := by
  have h1 := hc.one; have h2 := hc.bound
  have hlen : 0 < c.ts.length := List.length_pos_iff.2 hc.ne
  unfold P.scan
  by_cases h : c.i ≤ c.ts.length
  · rw [if_pos h]
    have hm : Mid { c with i := c.i + 1 } :=
      ⟨by show 1 ≤ c.i + 1; omega, by show c.i + 1 ≤ c.ts.length + 1; omega, hc.ne, hc.text⟩
    by_cases h' : c.i + 1 ≤ c.ts.length
    · left
      refine ⟨{ c with i := c.i + 1 }, c.ts[c.i].v, by simp [h'], ⟨hm, h'⟩, ?_, ?_, rfl⟩
      · unfold LineCtx.left
        rw [List.drop_eq_getElem_cons (show c.i < c.ts.length by omega), List.map_cons]
      · unfold LineCtx.text LineCtx.curr
        rw [if_pos ⟨by show 0 < c.i + 1; omega, h'⟩]
        show (c.ts.getD (c.i + 1 - 1) .zero).v = _
        rw [Nat.add_sub_cancel, List.getD_eq_getElem?_getD, List.getElem?_eq_getElem (show c.i < c.ts.length by omega)]
        rfl
    · right
      refine ⟨{ c with i := c.i + 1 }, by simp [h'], hm, ?_, ?_, by show 2 ≤ c.i + 1; omega, .inl rfl⟩
      · unfold LineCtx.left
        rw [List.drop_eq_nil_of_le (by omega)]; rfl
      · unfold LineCtx.left
        rw [List.drop_eq_nil_of_le (by show c.ts.length ≤ c.i + 1; omega)]; rfl
  · rw [if_neg h]
    have hl : c.left = [] := by
      unfold LineCtx.left
      rw [List.drop_eq_nil_of_le (by omega)]; rfl
    exact .inr ⟨c, rfl, hc, hl, hl, by omega, .inr rfl⟩

theorem AtTok.toMid' {c : LineCtx} (h : AtTok c) : Mid c := h.toMid

/-- `mustReadArg` and a function that starts at a word. -/
theorem sim_must {α : Type} {m : P α} {f : Bytes → Nat → List Bytes → Option (α × List Bytes)} (h : SimAt m f) :
    Sim (P.mustReadArg >>= fun _ => m) fun v ws => match ws with
      | [] => none
      | w :: ws => f w v ws := by
  intro c hc
  unfold P.mustReadArg
  simp only [P.bind_apply]
  rcases scan_left c hc with ⟨d, w, h1, h2, h3, h4, h5⟩ | ⟨d, h1, h2, h3, h4, h5, h6⟩
  · rw [h1]
    simp only [if_true, P.pure_apply]
    rw [h3]
    have h7 := h d h2
    rw [h4] at h7
    dsimp only
    have hv : d.version = c.version := by rw [h5]
    have ho : d.ops = c.ops := by rw [h5]
    have ht : d.ts = c.ts := by rw [h5]
    rw [hv] at h7
    cases hm : m d with
    | ok b e => rw [hm] at h7; exact ⟨h7.1, h7.2.1.toMid, h7.2.2.1.trans ht, h7.2.2.2.1.trans hv, h7.2.2.2.2.trans ho⟩
    | fail e => rw [hm] at h7; exact ⟨h7.1, h7.2.trans ho⟩
    | crash => rw [hm] at h7; exact h7
  · rw [h1]
    simp only [Bool.false_eq_true, if_false]
    rw [h3]
    refine ⟨rfl, ?_⟩
    rcases h6 with rfl | rfl <;> rfl

theorem sim_must_word {α : Type} {m : P α} {r : Nat → Bytes → Option α}
    (h : SimAt m fun w v ws => (r v w).map fun a => (a, ws)) :
    Sim (P.mustReadArg >>= fun _ => m) (.word r) := by
  have := sim_must h
  intro c hc
  have h1 := this c hc
  unfold Reader.word
  exact h1

theorem simAt_num {α : Type} (r : Bytes → Option α) (why : ParseWhy) :
    SimAt (do
      let v ← P.orFail (r (← P.text)) why
      P.addNum
      Pure.pure v) fun w _ ws => (r w).map fun a => (a, ws) := by
  intro c hc
  simp only [P.bind_apply, P.text]
  unfold P.orFail
  cases r c.text with
  | none => exact ⟨rfl, rfl⟩
  | some a =>
    refine ⟨rfl, ?_, rfl, rfl, rfl⟩
    exact ⟨⟨hc.one, hc.bound, hc.ne, hc.text⟩, hc.tok⟩

theorem sim_uint8 : Sim P.mustReadUint8 (.word fun _ => readUint8) := sim_must_word (simAt_num readUint8 _)
theorem sim_uint64 : Sim P.mustReadInt (.word fun _ => readInt) := sim_must_word (simAt_num readInt _)
theorem sim_const : Sim P.mustReadConstInt (.word fun _ => readConstInt) := sim_must_word (simAt_num readConstInt _)
theorem sim_int8 : Sim P.mustReadInt8 (.word fun _ => readInt8) := sim_must_word (simAt_num readInt8 _)

theorem sim_maybe : Sim P.maybeReadUint8 (.opt readUint8) := by
  intro c hc
  unfold P.maybeReadUint8 Reader.opt
  simp only [P.bind_apply]
  rcases scan_left c hc with ⟨d, w, h1, h2, h3, h4, h5⟩ | ⟨d, h1, h2, h3, h4, h5, h6⟩
  · rw [h1]
    simp only [if_true]
    rw [h3]
    have h7 := simAt_num readUint8 .badUint8 d h2
    rw [h4] at h7
    dsimp only
    have hv : d.version = c.version := by rw [h5]
    have ho : d.ops = c.ops := by rw [h5]
    have ht : d.ts = c.ts := by rw [h5]
    change SimOut d AtTok ((readUint8 w).map fun a => (a, d.left)) (P.parseUint8 d) at h7
    rw [P.bind_apply]
    cases hm : P.parseUint8 d with
    | ok b e =>
      rw [hm] at h7
      obtain ⟨h8, h9, h10, h11, h12⟩ := h7
      refine ⟨?_, h9.toMid, h10.trans ht, h11.trans hv, h12.trans ho⟩
      cases hr : readUint8 w with
      | none => rw [hr] at h8; cases h8
      | some x =>
        rw [hr] at h8
        simp only [Option.map_some, Option.some.injEq, Prod.mk.injEq] at h8
        simp [h8]
    | fail e =>
      rw [hm] at h7
      refine ⟨?_, h7.2.trans ho⟩
      cases hr : readUint8 w with
      | none => rfl
      | some x => rw [hr] at h7; cases h7.1
    | crash => rw [hm] at h7; exact h7
  · rw [h1]
    simp only [Bool.false_eq_true, if_false]
    rw [h3]
    refine ⟨by rw [h4], h2, ?_, ?_, ?_⟩ <;> rcases h6 with rfl | rfl <;> rfl

theorem sim_field (r : FieldReader) :
    Sim (P.mustReadField r) (.word fun v s => (readFieldWith r v s).map (·.field)) := by
  refine sim_must_word (r := fun v s => (readFieldWith r v s).map (·.field)) ?_
  intro c hc
  simp only [P.bind_apply, P.text, P.version]
  unfold P.orFail
  cases readFieldWith r c.version c.text with
  | none => exact ⟨rfl, rfl⟩
  | some a =>
    simp only [P.pure_apply]
    cases a.isconst
    · refine ⟨rfl, ⟨⟨hc.one, hc.bound, hc.ne, hc.text⟩, hc.tok⟩, rfl, rfl, rfl⟩
    · refine ⟨rfl, ⟨⟨hc.one, hc.bound, hc.ne, hc.text⟩, hc.tok⟩, rfl, rfl, rfl⟩

theorem sim_label : Sim P.mustReadLabel (.word fun _ => some) := by
  refine sim_must_word (r := fun _ => some) ?_
  intro c hc
  exact ⟨rfl, ⟨⟨hc.one, hc.bound, hc.ne, hc.text⟩, hc.tok⟩, rfl, rfl, rfl⟩

theorem sim_addr (addrOk : Bytes → Bool) :
    Sim (P.mustReadAddr addrOk) (.word fun _ w => if addrOk w then some w else none) := by
  have : P.mustReadAddr addrOk = P.mustReadArg >>= fun _ => (do
      let value ← P.text
      if addrOk value then pure () else P.failCurr .badAddr
      P.addStr
      pure value) := by
    funext c
    unfold P.mustReadAddr P.mustRead
    simp only [P.bind_apply]
    cases P.mustReadArg c <;> rfl
  rw [this]
  refine sim_must_word (r := fun _ w => if addrOk w then some w else none) ?_
  intro c hc
  simp only [P.bind_apply, P.text]
  cases addrOk c.text
  · exact ⟨rfl, rfl⟩
  · exact ⟨rfl, ⟨⟨hc.one, hc.bound, hc.ne, hc.text⟩, hc.tok⟩, rfl, rfl, rfl⟩

theorem sim_signature : Sim P.mustReadSignature (.word fun _ => quotedWord) := by
  refine sim_must_word (r := fun _ => quotedWord) ?_
  intro c hc
  have hne := hc.text_ne
  simp only [P.bind_apply, P.text]
  unfold quotedWord
  cases hh : c.text.head? with
  | none => rw [List.head?_eq_none_iff] at hh; exact absurd hh hne
  | some b =>
    cases hl : c.text.getLast? with
    | none => rw [List.getLast?_eq_none_iff] at hl; exact absurd hl hne
    | some e =>
      simp only [Option.some.injEq]
      by_cases h1 : b = chQuote
      · by_cases h2 : e = chQuote
        · rw [if_pos ⟨h1, h2⟩]
          simp only [h1, h2, ne_eq, not_true_eq_false, or_self, if_false]
          exact ⟨rfl, ⟨⟨hc.one, hc.bound, hc.ne, hc.text⟩, hc.tok⟩, rfl, rfl, rfl⟩
        · rw [if_neg (fun h => h2 h.2)]
          simp only [h2, ne_eq, not_false_eq_true, or_true, if_true]
          exact ⟨rfl, rfl⟩
      · rw [if_neg (fun h => h1 h.1)]
        simp only [h1, ne_eq, not_false_eq_true, true_or, if_true]
        exact ⟨rfl, rfl⟩

/-- `orFail`, `addStr`, `pure`. -/
theorem simOut_str {c : LineCtx} (hc : AtTok c) (r : Option Bytes) :
    SimOut c AtTok (r.map fun a => (a, c.left)) ((do
      let val ← P.orFail r .badBytes
      P.addStr
      Pure.pure val : P Bytes) c) := by
  unfold P.orFail
  cases r with
  | none => exact ⟨rfl, rfl⟩
  | some a => exact ⟨rfl, ⟨⟨hc.one, hc.bound, hc.ne, hc.text⟩, hc.tok⟩, rfl, rfl, rfl⟩

theorem simOut_paren {c : LineCtx} (hc : AtTok c) (r : Option Bytes) (f : Bytes → Option Bytes) :
    SimOut c AtTok ((r.bind f).map fun a => (a, c.left)) ((do
      let body ← P.orFail r .badBytes
      let val ← P.orFail (f body) .badBytes
      P.addStr
      Pure.pure val : P Bytes) c) := by
  cases r with
  | none => exact ⟨rfl, rfl⟩
  | some a => exact simOut_str hc (f a)

theorem simOut_next {c : LineCtx} (hc : AtTok c) (f : Bytes → Option Bytes) :
    SimOut c AtTok (match c.left with
      | [] => none
      | w :: ws => (f w).map fun a => (a, ws)) ((do
      P.addKey
      let l ← P.mustRead
      let val ← P.orFail (f l) .badBytes
      P.addStr
      Pure.pure val : P Bytes) c) := by
  rw [P.bind_apply]
  unfold P.addKey P.mustRead P.mustReadArg
  simp only [P.bind_apply]
  have hc' : AtTok { c with keys := c.keys ++ [c.curr] } := ⟨⟨hc.one, hc.bound, hc.ne, hc.text⟩, hc.tok⟩
  rcases scan_left _ hc'.toMid with ⟨d, w, h1, h2, h3, h4, h5⟩ | ⟨d, h1, h2, h3, h4, h5, h6⟩
  · rw [h1]
    simp only [if_true, P.pure_apply, P.text]
    change c.left = _ at h3
    rw [h3, h4]
    have h7 := simOut_str h2 (f w)
    simp only [P.bind_apply] at h7
    have hv : d.version = c.version := by rw [h5]
    have ho : d.ops = c.ops := by rw [h5]
    have ht : d.ts = c.ts := by rw [h5]
    cases hm : P.orFail (f w) .badBytes d with
    | ok b e =>
      rw [hm] at h7
      exact ⟨h7.1, h7.2.1, h7.2.2.1.trans ht, h7.2.2.2.1.trans hv, h7.2.2.2.2.trans ho⟩
    | fail e => rw [hm] at h7; exact ⟨h7.1, h7.2.trans ho⟩
    | crash => rw [hm] at h7; exact h7
  · rw [h1]
    change c.left = _ at h3
    rw [h3]
    refine ⟨rfl, ?_⟩
    rcases h6 with rfl | rfl <;> rfl

theorem simAt_bytes : SimAt P.parseBytes fun w _ ws => bytesAt w ws := by
  intro c hc
  unfold P.parseBytes bytesAt
  rw [P.bind_apply]
  simp only [P.text]
  split
  · exact simOut_paren hc _ _
  split
  · exact simOut_paren hc _ _
  split
  · exact simOut_str hc _
  split
  · exact simOut_next hc _
  split
  · exact simOut_next hc _
  split
  · have := parseStringLiteral_no_crash c.text hc.text_ne
    cases hs : parseStringLiteral c.text with
    | ok val => exact ⟨rfl, ⟨⟨hc.one, hc.bound, hc.ne, hc.text⟩, hc.tok⟩, rfl, rfl, rfl⟩
    | err => exact ⟨rfl, rfl⟩
    | crash => exact absurd hs this
  · exact ⟨rfl, rfl⟩

theorem sim_bytes : Sim P.mustReadBytes .bytes := by
  have := sim_must simAt_bytes
  intro c hc
  have h1 := this c hc
  unfold Reader.bytes
  exact h1

/-! ## Arrays -/

/-- A reader of one element does not make words. -/
def Shrinks {α : Type} (r : Bytes → List Bytes → Option (α × List Bytes)) : Prop :=
  ∀ w ws a ws', r w ws = some (a, ws') → ws'.length ≤ ws.length

theorem sim_loop {α : Type} {m : P α} {r : Bytes → List Bytes → Option (α × List Bytes)}
    (h : SimAt m fun w _ ws => r w ws) (hr : Shrinks r) : ∀ (fuel n : Nat) (c : LineCtx), Mid c →
    c.left.length ≤ n → c.left.length < fuel →
    SimOut c Mid ((Reader.many r n c.left).map fun as => (as, [])) (P.scanLoop m fuel c) := by
  intro fuel
  induction fuel with
  | zero => intro n c hc h1 h2; omega
  | succ fuel ih =>
    intro n c hc h1 h2
    rw [P.scanLoop]
    simp only [P.bind_apply]
    rcases scan_left c hc with ⟨d, w, s1, s2, s3, s4, s5⟩ | ⟨d, s1, s2, s3, s4, s5, s6⟩
    · rw [s1]
      simp only [if_true]
      rw [s3] at h1 h2 ⊢
      simp only [List.length_cons] at h1 h2
      obtain ⟨n, rfl⟩ : ∃ k, n = k + 1 := ⟨n - 1, by omega⟩
      have hv : d.version = c.version := by rw [s5]
      have ho : d.ops = c.ops := by rw [s5]
      have ht : d.ts = c.ts := by rw [s5]
      have h7 := h d s2
      rw [s4] at h7
      rw [Reader.many, P.bind_apply]
      cases hm : m d with
      | ok b e =>
        rw [hm] at h7
        obtain ⟨h8, h9, h10, h11, h12⟩ := h7
        have h13 := hr _ _ _ _ h8
        dsimp only at h8 ⊢
        rw [h8]
        have h14 := ih n e h9.toMid (by omega) (by omega)
        dsimp only
        rw [P.bind_apply]
        cases hl : P.scanLoop m fuel e with
        | ok as x =>
          rw [hl] at h14
          obtain ⟨h15, h16, h17, h18, h19⟩ := h14
          refine ⟨?_, h16, h17.trans (h10.trans ht), h18.trans (h11.trans hv), h19.trans (h12.trans ho)⟩
          cases hmany : Reader.many r n e.left with
          | none => rw [hmany] at h15; cases h15
          | some ys =>
            rw [hmany] at h15
            simp only [Option.map_some, Option.some.injEq, Prod.mk.injEq] at h15 ⊢
            exact ⟨by rw [h15.1], h15.2⟩
        | fail x =>
          rw [hl] at h14
          refine ⟨?_, h14.2.trans (h12.trans ho)⟩
          cases hmany : Reader.many r n e.left with
          | none => rfl
          | some ys => rw [hmany] at h14; cases h14.1
        | crash => rw [hl] at h14; exact h14
      | fail e =>
        rw [hm] at h7
        have h8 := h7.1
        dsimp only at h8 ⊢
        rw [h8]
        exact ⟨rfl, h7.2.trans ho⟩
      | crash => rw [hm] at h7; exact h7
    · rw [s1]
      simp only [Bool.false_eq_true, if_false]
      rw [s3]
      refine ⟨?_, s2, ?_, ?_, ?_⟩
      · rw [Reader.many]; simp [s4]
      all_goals rcases s6 with rfl | rfl <;> rfl

theorem left_length (c : LineCtx) : c.left.length ≤ c.ts.length := by
  unfold LineCtx.left
  rw [List.length_map, List.length_drop]
  omega

theorem sim_array {α : Type} {m : P α} {r : Bytes → List Bytes → Option (α × List Bytes)}
    (h : SimAt m fun w _ ws => r w ws) (hr : Shrinks r) : Sim (P.readArray m) (.all r) := by
  intro c hc
  exact sim_loop h hr (c.ts.length + 1) c.left.length c hc (Nat.le_refl _)
    (Nat.lt_succ_of_le (left_length c))

theorem oneWord_shrinks {α : Type} (r : Bytes → Option α) : Shrinks (oneWord r) := by
  intro w ws a ws' h
  unfold oneWord at h
  obtain ⟨x, -, h2⟩ := Option.map_eq_some_iff.1 h
  injection h2 with _ h3
  rw [h3]; exact Nat.le_refl _

theorem next_shrinks {ws : List Bytes} {a : Bytes} {ws' : List Bytes} {f : Bytes → Option Bytes} :
    (match ws with
      | [] => none
      | w :: ws => (f w).map fun a => (a, ws)) = some (a, ws') → ws'.length ≤ ws.length := by
  intro h
  cases ws with
  | nil => cases h
  | cons x xs =>
    obtain ⟨y, -, h2⟩ := Option.map_eq_some_iff.1 h
    injection h2 with _ h3
    rw [← h3]; simp

theorem bytesAt_shrinks : Shrinks bytesAt := by
  intro w ws a ws' h
  have key : ∀ {o : Option Bytes}, o.map (fun a => (a, ws)) = some (a, ws') → ws'.length ≤ ws.length := by
    intro o h
    obtain ⟨x, -, h2⟩ := Option.map_eq_some_iff.1 h
    injection h2 with _ h3
    rw [h3]; exact Nat.le_refl _
  have key2 := @next_shrinks ws a ws'
  unfold bytesAt at h
  split at h
  · exact key h
  split at h
  · exact key h
  split at h
  · exact key h
  split at h
  · exact key2 h
  split at h
  · exact key2 h
  split at h
  · cases hs : parseStringLiteral w with
    | ok v => rw [hs] at h; simp only [Option.some.injEq, Prod.mk.injEq] at h; rw [h.2]; exact Nat.le_refl _
    | err => rw [hs] at h; cases h
    | crash => rw [hs] at h; cases h
  · cases h

theorem sim_bytesArray : Sim P.readBytesArray (.all bytesAt) := sim_array simAt_bytes bytesAt_shrinks

theorem sim_labelsArray : Sim P.readLabelsArray (.all (oneWord some)) := by
  refine sim_array ?_ (oneWord_shrinks _)
  intro c hc
  exact ⟨rfl, ⟨⟨hc.one, hc.bound, hc.ne, hc.text⟩, hc.tok⟩, rfl, rfl, rfl⟩

theorem sim_uint64Array : Sim P.readUint64Array (.all (oneWord readInt)) := by
  refine sim_array ?_ (oneWord_shrinks _)
  intro c hc
  unfold oneWord
  unfold P.parseUint64 P.orFail
  simp only [P.bind_apply, P.text]
  cases readInt c.text with
  | none => exact ⟨rfl, rfl⟩
  | some a => exact ⟨rfl, ⟨⟨hc.one, hc.bound, hc.ne, hc.text⟩, hc.tok⟩, rfl, rfl, rfl⟩

/-! ## Instructions -/

/-- The outcome of a parse function against the words. -/
def EmOut (c : LineCtx) (r : Option (Op × List Bytes)) : Out Unit → Prop
  | .ok _ d => ∃ o, r = some (o, d.left) ∧ d.ops = c.ops ++ [o]
  | .fail d => r = none ∧ d.ops = c.ops
  | .crash => False

/-- A parse function that emits one instruction. -/
def EmSim (m : P Unit) (f : Reader Op) : Prop := ∀ c, Mid c → EmOut c (f c.version c.left) (m c)

theorem EmSim.emit (o : Op) : EmSim (P.emit o) (.ret o) := fun _ _ => ⟨o, rfl, rfl⟩

theorem EmSim.bind {α : Type} {m : P α} {f : Reader α} {g : α → P Unit} {h : α → Reader Op} (h1 : Sim m f)
    (h2 : ∀ a, EmSim (g a) (h a)) : EmSim (m >>= g) (f.bind h) := by
  intro c hc
  have h3 := h1 c hc
  rw [P.bind_apply]
  unfold Reader.bind
  cases hm : m c with
  | ok a d =>
    rw [hm] at h3
    obtain ⟨h4, h5, h6, h7, h8⟩ := h3
    rw [h4]
    have h9 := h2 a d h5
    rw [h7] at h9
    dsimp only
    cases hg : g a d with
    | ok b e => rw [hg] at h9; obtain ⟨o, h10, h11⟩ := h9; exact ⟨o, h10, by rw [h11, h8]⟩
    | fail e => rw [hg] at h9; exact ⟨h9.1, h9.2.trans h8⟩
    | crash => rw [hg] at h9; exact h9
  | fail d => rw [hm] at h3; rw [h3.1]; exact ⟨rfl, h3.2⟩
  | crash => rw [hm] at h3; exact h3

theorem emSim_shape (addrOk : Bytes → Bool) (sh : Shape) :
    EmSim (P.parseShape addrOk sh) (evalShape addrOk sh) := by
  have e := fun o => EmSim.emit o
  cases sh with
  | plain k => exact e _
  | u8 k => exact .bind sim_uint8 fun _ => e _
  | u8u8 k => exact .bind sim_uint8 fun _ => .bind sim_uint8 fun _ => e _
  | i8 k => exact .bind sim_int8 fun _ => e _
  | field r k => exact .bind (sim_field r) fun _ => e _
  | fieldIdx k => exact .bind (sim_field _) fun _ => .bind sim_uint8 fun _ => e _
  | fieldOptIdx k k' =>
    refine .bind (sim_field _) fun _ => .bind sim_maybe fun i => ?_
    cases i <;> exact e _
  | groupField c k => exact .bind sim_uint8 fun _ => .bind (sim_field _) fun _ => e _
  | gtxn =>
    refine .bind sim_uint8 fun _ => .bind (sim_field _) fun _ => .bind sim_maybe fun i => ?_
    cases i <;> exact e _
  | gtxna => exact .bind sim_uint8 fun _ => .bind (sim_field _) fun _ => .bind sim_uint8 fun _ => e _
  | gitxna => exact .bind sim_uint64 fun _ => .bind (sim_field _) fun _ => .bind sim_uint8 fun _ => e _
  | int => exact .bind sim_const fun _ => e _
  | pushint => exact .bind sim_uint64 fun _ => e _
  | byte => exact .bind sim_bytes fun _ => e _
  | pushbytes => exact .bind sim_bytes fun _ => e _
  | addr => exact .bind (sim_addr addrOk) fun _ => e _
  | method => exact .bind sim_signature fun _ => e _
  | intcblock => exact .bind sim_uint64Array fun _ => e _
  | pushints => exact .bind sim_uint64Array fun _ => e _
  | bytecblock => exact .bind sim_bytesArray fun _ => e _
  | pushbytess => exact .bind sim_bytesArray fun _ => e _
  | branch k => exact .bind sim_label fun _ => e _
  | switch => exact .bind sim_labelsArray fun _ => e _
  | match_ => exact .bind sim_labelsArray fun _ => e _
  | replace =>
    refine .bind sim_maybe fun i => ?_
    cases i <;> exact e _
  | extract =>
    refine .bind sim_maybe fun i => ?_
    cases i with
    | none => exact e _
    | some n => exact .bind sim_uint8 fun _ => e _

/-- How the reading of an instruction ends. -/
def WordsEnd (ts : List Token) (diag : List Diag) (d : LineCtx) : Option (Op × List Bytes) → Prop
  | some (o, []) => d.ops = [o] ∧ d.diag = diag
  | some (o, _ :: _) => d.ops = [o, .empty] ∧ ∃ t ∈ ts, d.diag = diag ++ [parseDiag .tooManyValues t]
  | none => d.ops = [.empty] ∧ ∃ why t, why.ofOperand = true ∧ t ∈ ts ∧ d.diag = diag ++ [parseDiag why t]

/-- How the reading of an instruction ends, in terms of the words behind the opcode. -/
theorem parseOp_words (addrOk : Bytes → Bool) (e : OpEntry) (c : LineCtx) (hne : c.ts ≠ [])
    (htext : ∀ t ∈ c.ts, t.v ≠ []) (hi : c.i = 1) (h0 : c.ops = []) :
    ∃ d, recovered (parseOp addrOk e c) = some d ∧
      WordsEnd c.ts c.diag d (evalShape addrOk e.shape c.version ((c.ts.drop 1).map Token.v)) := by
  have hm : Mid c := ⟨by omega, by omega, hne, htext⟩
  have h := emSim_shape addrOk e.shape c hm
  have h' := emits_parseShape addrOk e.shape c hm
  have hl : c.left = (c.ts.drop 1).map Token.v := by rw [← hi]; rfl
  rw [← hl]
  unfold parseOp
  rw [P.bind_apply]
  cases hp : P.parseShape addrOk e.shape c with
  | crash => rw [hp] at h; exact h.elim
  | fail d =>
    rw [hp] at h h'
    obtain ⟨⟨hk, hr, why, t, hw, ht, hd⟩, -⟩ := h'
    refine ⟨_, rfl, ?_⟩
    rw [h.1]
    refine ⟨?_, why, t, hw, ht, hd⟩
    show d.ops ++ [Op.empty] = _
    rw [h.2, h0]; rfl
  | ok u d =>
    rw [hp] at h h'
    obtain ⟨o, h1, h2⟩ := h
    rw [h1]
    by_cases hmore : d.i < d.ts.length
    · have hleft : d.left = (d.ts[d.i]).v :: (d.ts.drop (d.i + 1)).map Token.v := by
        unfold LineCtx.left
        rw [List.drop_eq_getElem_cons hmore, List.map_cons]
      rw [hleft]
      refine ⟨{ d with i := d.i + 1, diag := d.diag ++ [parseDiag .tooManyValues (LineCtx.curr { d with i := d.i + 1 })], ops := d.ops ++ [.empty] }, ?_, ?_, ?_⟩
      · simp only [P.bind_apply, P.hasMore, P.scan, hmore, decide_true, if_true, if_pos (Nat.le_of_lt hmore),
          Nat.succ_le_of_lt hmore]
        rfl
      · show d.ops ++ [Op.empty] = _
        rw [h2, h0]; rfl
      · have hcurr : LineCtx.curr { d with i := d.i + 1 } ∈ c.ts := by
          rw [← h'.ts]
          unfold LineCtx.curr
          rw [if_pos ⟨Nat.succ_pos _, hmore⟩]
          show d.ts.getD (d.i + 1 - 1) .zero ∈ d.ts
          rw [Nat.add_sub_cancel, List.getD_eq_getElem?_getD, List.getElem?_eq_getElem hmore]
          exact List.getElem_mem _
        exact ⟨_, hcurr, by rw [← h'.diag]⟩
    · have hleft : d.left = [] := by
        unfold LineCtx.left
        rw [List.drop_eq_nil_of_le (by omega)]; rfl
      rw [hleft]
      refine ⟨d, ?_, by rw [h2, h0]; rfl, h'.diag⟩
      simp only [P.bind_apply, P.hasMore, hmore, decide_false]
      rfl

end Teal
