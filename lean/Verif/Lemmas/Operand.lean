import Verif.Model.Operand
import Verif.Lemmas.Words

/-!
# Both readings of operands find the same error
-/

namespace Teal
open P

section
variable (e : ErrorTexts) (addrOk : Bytes → Bool)

/-- The reading fails, and says so at the word behind which `n - 1` words follow. -/
def Fails {α : Type} (m : P α) (c : LineCtx) (n : Nat) (why : ParseWhy) : Prop :=
  ∃ d u, m c = .fail d ∧ c.ts[c.ts.length - n]? = some u ∧ d.diag = c.diag ++ [parseDiag why u]

/-- Nothing is said. -/
structure Quietly (c d : LineCtx) : Prop where
  ts : d.ts = c.ts
  version : d.version = c.version
  diag : d.diag = c.diag

theorem Quietly.trans {a b c : LineCtx} (h : Quietly a b) (h' : Quietly b c) : Quietly a c :=
  ⟨h'.ts.trans h.ts, h'.version.trans h.version, h'.diag.trans h.diag⟩

/-- What remains behind an operand at the word `w`. -/
def behind (ty : ArgType) (w : Bytes) (ws : List Bytes) : List Bytes := if takesTwo ty w then ws.tail else ws

/-- How a function that reads an operand at the current word ends. -/
def EndsAt {α : Type} (m : P α) (c : LineCtx) (rest : List Bytes) : Option (Nat × ParseWhy × Bytes) → Prop
  | some (n, why, _) => Fails m c n why
  | none => ∃ a d, m c = .ok a d ∧ AtTok d ∧ Quietly c d ∧ d.left = rest

/-- `m` reads an operand at the current word. -/
def AtArg {α : Type} (m : P α) (name : Bytes) (ty : ArgType) : Prop :=
  ∀ c, AtTok c → EndsAt m c (behind ty c.text c.left) (argError e addrOk c.version name ty c.text c.left)

/-- `m` reads an operand at the next word, which must be there. -/
def NextArg {α : Type} (m : P α) (name : Bytes) (ty : ArgType) : Prop :=
  ∀ c, Mid c → (c.left = [] → Fails m c 1 .missingArg) ∧
    ∀ w ws, c.left = w :: ws →
      match argError e addrOk c.version name ty w ws with
      | some (n, why, _) => Fails m c n why
      | none => ∃ a d, m c = .ok a d ∧ Mid d ∧ Quietly c d ∧ d.left = behind ty w ws

/-- `m` reads the operands. -/
def Walks {α : Type} (m : P α) (as : List DocArg) : Prop :=
  ∀ c, Mid c → match walkArgs e addrOk c.version as false c.left with
    | some (n, why, _) => Fails m c n why
    | none => ∃ a d, m c = .ok a d ∧ d.diag = c.diag

variable {e addrOk}

theorem curr_at {c : LineCtx} (h : AtTok c) : c.ts[c.ts.length - (c.left.length + 1)]? = some c.curr := by
  have h1 := h.one; have h2 := h.tok
  have h3 : c.left.length = c.ts.length - c.i := by unfold LineCtx.left; simp
  rw [h3, show c.ts.length - (c.ts.length - c.i + 1) = c.i - 1 by omega]
  unfold LineCtx.curr
  rw [if_pos ⟨by omega, h2⟩, List.getD_eq_getElem?_getD, List.getElem?_eq_getElem (by omega)]
  rfl

theorem fails_curr {α : Type} {c : LineCtx} (h : AtTok c) (why : ParseWhy) :
    Fails (P.failCurr why : P α) c (c.left.length + 1) why := ⟨_, _, rfl, curr_at h, rfl⟩

theorem Fails.bind {α β : Type} {m : P α} {f : α → P β} {c : LineCtx} {n : Nat} {why : ParseWhy} (h : Fails m c n why) :
    Fails (m >>= f) c n why := by
  obtain ⟨d, u, h1, h2, h3⟩ := h
  exact ⟨d, u, by rw [P.bind_apply, h1], h2, h3⟩

theorem Fails.after {α β : Type} {m : P α} {f : α → P β} {c d : LineCtx} {a : α} {n : Nat} {why : ParseWhy} (hm : m c = .ok a d) (hg : Quietly c d)
    (h : Fails (f a) d n why) : Fails (m >>= f) c n why := by
  obtain ⟨x, u, h1, h2, h3⟩ := h
  exact ⟨x, u, by rw [P.bind_apply, hm]; exact h1, by rw [← hg.ts]; exact h2, by rw [h3, hg.diag]⟩

/-- What `mustReadArg` does. -/
theorem must_next (c : LineCtx) (hc : Mid c) :
    (c.left = [] ∧ Fails P.mustReadArg c 1 .missingArg) ∨
    ∃ w d, c.left = w :: d.left ∧ d.text = w ∧ P.mustReadArg c = .ok () d ∧ AtTok d ∧ Quietly c d := by
  unfold P.mustReadArg
  rcases scan_left c hc with ⟨d, w, h1, h2, h3, h4, h5⟩ | ⟨d, h1, h2, h3, h4, h5, h6⟩
  · refine .inr ⟨w, d, h3, h4, ?_, h2, ?_⟩
    · rw [P.bind_apply, h1]; rfl
    · rw [h5]; exact ⟨rfl, rfl, rfl⟩
  · refine .inl ⟨h3, ?_⟩
    have hts : d.ts = c.ts := by rcases h6 with rfl | rfl <;> rfl
    have hdi : d.diag = c.diag := by rcases h6 with rfl | rfl <;> rfl
    have hlen : 0 < c.ts.length := List.length_pos_iff.2 hc.ne
    have hi : d.i = c.ts.length + 1 := by
      have h7 := h2.bound
      rw [hts] at h7
      have h8 : d.ts.length ≤ d.i - 1 := by
        rcases h6 with rfl | rfl
        · have : (c.ts.drop c.i).length = 0 := by
            unfold LineCtx.left at h3; rw [List.map_eq_nil_iff] at h3; rw [h3]; rfl
          rw [List.length_drop] at this
          show c.ts.length ≤ c.i + 1 - 1
          omega
        · unfold P.scan at h1
          split at h1
          · rename_i hle
            injection h1 with h1 h9
            have := congrArg LineCtx.i h9
            simp at this
          · rename_i hle; omega
      rw [hts] at h8
      omega
    refine ⟨_, d.prev, by rw [P.bind_apply, h1]; rfl, ?_, by rw [hdi]; rfl⟩
    unfold LineCtx.prev
    rw [if_pos (by omega), hts, List.getD_eq_getElem?_getD, hi, show c.ts.length + 1 - 2 = c.ts.length - 1 by omega,
      List.getElem?_eq_getElem (by omega)]
    rfl

theorem AtArg.must {α : Type} {m : P α} {name : Bytes} {ty : ArgType} (h : AtArg e addrOk m name ty) :
    NextArg e addrOk (P.mustReadArg >>= fun _ => m) name ty := by
  intro c hc
  rcases must_next c hc with ⟨h1, h2⟩ | ⟨w, d, h1, h2, h3, h4, h5⟩
  · refine ⟨fun _ => h2.bind, fun w ws h => ?_⟩
    rw [h1] at h; cases h
  · refine ⟨fun h' => (by rw [h1] at h'; cases h'), fun w' ws' h' => ?_⟩
    rw [h1] at h'
    injection h' with h6 h7
    subst h6; subst h7
    have h8 := h d h4
    rw [h2, h5.version] at h8
    revert h8
    cases argError e addrOk c.version name ty w d.left with
    | none =>
      rintro ⟨a, x, h9, h10, h11, h12⟩
      exact ⟨a, x, by rw [P.bind_apply, h3]; exact h9, h10.toMid, h5.trans h11, h12⟩
    | some q => exact fun h8 => Fails.after h3 h5 h8

theorem atTok_of {c d : LineCtx} (h : AtTok c) (hi : d.i = c.i) (ht : d.ts = c.ts) : AtTok d := by
  refine ⟨⟨by rw [hi]; exact h.one, by rw [hi, ht]; exact h.bound, by rw [ht]; exact h.ne, by rw [ht]; exact h.text⟩, by rw [hi, ht]; exact h.tok⟩

theorem atArg_num {α : Type} {name : Bytes} {ty : ArgType} {r : Bytes → Option α} {why : ParseWhy} (msg : Bytes → Bytes)
    (h : ∀ v w ws, argError e addrOk v name ty w ws = if r w = none then some (ws.length + 1, why, msg w) else none)
    (ht : ∀ w, takesTwo ty w = false) :
    AtArg e addrOk (do
      let v ← P.orFail (r (← P.text)) why
      P.addNum
      Pure.pure v) name ty := by
  intro c hc
  rw [h]
  unfold behind
  rw [ht]
  cases hr : r c.text with
  | none =>
    rw [if_pos rfl]
    obtain ⟨d, u, h1, h2⟩ := fails_curr (α := α) hc why
    refine ⟨d, u, ?_, h2⟩
    simp only [P.bind_apply, P.text, hr, P.orFail, h1]
  | some a =>
    rw [if_neg (by simp)]
    refine ⟨a, { c with nums := c.nums ++ [c.curr] }, by simp only [P.bind_apply, P.text, hr, P.orFail]; rfl, atTok_of hc rfl rfl, ⟨rfl, rfl, rfl⟩, rfl⟩

theorem next_uint8 (name : Bytes) : NextArg e addrOk P.mustReadUint8 name .uint8 :=
  AtArg.must (atArg_num (r := readUint8) (fun w => b!"failed to parse uint8: " ++ name ++ b!": " ++ e.uint8 w) (fun _ _ _ => rfl) (fun _ => rfl))

theorem next_uint64 (name : Bytes) : NextArg e addrOk P.mustReadInt name .uint64 :=
  AtArg.must (atArg_num (r := readInt) (fun w => b!"failed to parse uint64: " ++ name ++ b!": " ++ e.uint64 w) (fun _ _ _ => rfl) (fun _ => rfl))

theorem next_const (name : Bytes) : NextArg e addrOk P.mustReadConstInt name .constInt :=
  AtArg.must (atArg_num (r := readConstInt) (fun w => b!"failed to parse uint64: " ++ name ++ b!": " ++ e.uint64 w) (fun _ _ _ => rfl) (fun _ => rfl))

theorem next_int8 (name : Bytes) : NextArg e addrOk P.mustReadInt8 name .int8 :=
  AtArg.must (atArg_num (r := readInt8) (fun w => b!"failed to parse int8: " ++ name ++ b!": " ++ e.int8 w) (fun _ _ _ => rfl) (fun _ => rfl))

theorem at_uint8 (name : Bytes) : AtArg e addrOk P.parseUint8 name .uint8 :=
  atArg_num (r := readUint8) (fun w => b!"failed to parse uint8: " ++ name ++ b!": " ++ e.uint8 w) (fun _ _ _ => rfl) (fun _ => rfl)

theorem at_uint64 (name : Bytes) : AtArg e addrOk P.parseUint64 name .uint64 :=
  atArg_num (r := readInt) (fun w => b!"failed to parse uint64: " ++ name ++ b!": " ++ e.uint64 w) (fun _ _ _ => rfl) (fun _ => rfl)

theorem readerError_none (r : FieldReader) (v : Nat) (s : Bytes) : readerError e r v s = none ↔ ∃ f, readFieldWith r v s = some f := by
  cases r with
  | group g =>
    unfold readerError readFieldWith
    dsimp only
    unfold fieldError readField
    cases g.specByName.get s with
    | some spec => dsimp only; split <;> simp
    | none => cases readUint8 s <;> simp
  | txn c =>
    unfold readerError readFieldWith
    dsimp only
    unfold txnFieldError readTxnField
    cases FieldGroup.txn.specByName.get s with
    | some spec =>
      dsimp only
      split
      · simp
      · split
        · simp
        · split <;> simp
    | none => cases readUint8 s <;> simp

theorem at_field (r : FieldReader) (name : Bytes) : AtArg e addrOk (do
      let f ← P.orFail (readFieldWith r (← P.version) (← P.text)) .badField
      if f.isconst then P.addStr else P.addNum
      pure f.field) name (.field r) := by
  intro c hc
  show EndsAt _ c _ ((readerError e r c.version c.text).map fun m => (c.left.length + 1, .badField, r.prefix_ name ++ m))
  have hb : behind (.field r) c.text c.left = c.left := by unfold behind takesTwo; rfl
  rw [hb]
  cases hr : readerError e r c.version c.text with
  | none =>
    obtain ⟨f, hf⟩ := (readerError_none r c.version c.text).1 hr
    refine ⟨f.field, ?_⟩
    simp only [P.bind_apply, P.version, P.text, hf, P.orFail, P.pure_apply]
    cases f.isconst
    · exact ⟨_, rfl, atTok_of hc rfl rfl, ⟨rfl, rfl, rfl⟩, rfl⟩
    · exact ⟨_, rfl, atTok_of hc rfl rfl, ⟨rfl, rfl, rfl⟩, rfl⟩
  | some m =>
    have hf : readFieldWith r c.version c.text = none := by
      cases h : readFieldWith r c.version c.text with
      | none => rfl
      | some f => rw [(readerError_none r c.version c.text).2 ⟨f, h⟩] at hr; cases hr
    obtain ⟨d, u, h1, h2⟩ := fails_curr (α := FieldRead) hc .badField
    refine ⟨d, u, ?_, h2⟩
    simp only [P.bind_apply, P.version, P.text, hf, P.orFail, h1]

theorem next_field (r : FieldReader) (name : Bytes) : NextArg e addrOk (P.mustReadField r) name (.field r) :=
  AtArg.must (at_field r name)

theorem next_label (name : Bytes) : NextArg e addrOk P.mustReadLabel name .label :=
  AtArg.must fun _ hc => ⟨_, _, rfl, atTok_of hc rfl rfl, ⟨rfl, rfl, rfl⟩, rfl⟩

theorem next_addr (name : Bytes) : NextArg e addrOk (P.mustReadAddr addrOk) name .addr := by
  have : P.mustReadAddr addrOk = P.mustReadArg >>= fun _ => (do
      let value ← P.text
      if addrOk value then pure () else P.failCurr .badAddr
      P.addStr
      pure value) := by
    funext c
    unfold P.mustReadAddr P.mustRead
    simp only [P.bind_apply]
    cases P.mustReadArg c <;> rfl
  rw [this]
  refine AtArg.must fun c hc => ?_
  show EndsAt _ c c.left (if addrOk c.text then none else some (c.left.length + 1, .badAddr, e.addr c.text))
  cases ha : addrOk c.text
  · rw [if_neg (by simp)]
    obtain ⟨d, u, h1, h2⟩ := fails_curr (α := Unit) hc .badAddr
    refine ⟨d, u, ?_, h2⟩
    simp only [P.bind_apply, P.text, ha, Bool.false_eq_true, if_false, h1]
  · rw [if_pos rfl]
    refine ⟨c.text, { c with strs := c.strs ++ [c.curr] }, by simp only [P.bind_apply, P.text, ha, if_true]; rfl, atTok_of hc rfl rfl, ⟨rfl, rfl, rfl⟩, rfl⟩

theorem next_signature (name : Bytes) : NextArg e addrOk P.mustReadSignature name .signature := by
  refine AtArg.must fun c hc => ?_
  show EndsAt _ c c.left (if c.text.head? = some chQuote ∧ c.text.getLast? = some chQuote then none
    else some (c.left.length + 1, .missingQuotes, b!"missing quotes"))
  have hne := hc.text_ne
  cases hh : c.text.head? with
  | none => rw [List.head?_eq_none_iff] at hh; exact absurd hh hne
  | some b =>
    cases hl : c.text.getLast? with
    | none => rw [List.getLast?_eq_none_iff] at hl; exact absurd hl hne
    | some x =>
      by_cases hq : b = chQuote ∧ x = chQuote
      · rw [if_pos ⟨congrArg some hq.1, congrArg some hq.2⟩]
        refine ⟨c.text, { c with strs := c.strs ++ [c.curr] }, ?_, atTok_of hc rfl rfl, ⟨rfl, rfl, rfl⟩, rfl⟩
        simp only [P.bind_apply, P.text, hh, hl, hq.1, hq.2, ne_eq, not_true_eq_false, or_self, if_false]
        rfl
      · rw [if_neg (by simpa using hq)]
        obtain ⟨d, u, h1, h2⟩ := fails_curr (α := Unit) hc .missingQuotes
        refine ⟨d, u, ?_, h2⟩
        simp only [P.bind_apply, P.text, hh, hl]
        rw [if_pos (by by_cases h : b = chQuote <;> simp_all)]
        simp only [P.bind_apply, h1]

/-! ## Byte constants -/

theorem str_ends {c : LineCtx} (hc : AtTok c) (r : Option Bytes) (msg : Bytes) :
    EndsAt (do
      let val ← P.orFail r .badBytes
      P.addStr
      Pure.pure val : P Bytes) c c.left (if r = none then some (c.left.length + 1, .badBytes, msg) else none) := by
  cases r with
  | none =>
    rw [if_pos rfl]
    obtain ⟨d, u, h1, h2⟩ := fails_curr (α := Bytes) hc .badBytes
    exact ⟨d, u, by simp only [P.bind_apply, P.orFail, h1], h2⟩
  | some a =>
    rw [if_neg (by simp)]
    exact ⟨a, _, rfl, atTok_of hc rfl rfl, ⟨rfl, rfl, rfl⟩, rfl⟩

theorem paren_ends {c : LineCtx} (hc : AtTok c) (r : Option Bytes) (f : Bytes → Option Bytes) (m : Bytes) (msg : Bytes → Bytes) :
    EndsAt (do
      let body ← P.orFail r .badBytes
      let val ← P.orFail (f body) .badBytes
      P.addStr
      Pure.pure val : P Bytes) c c.left (match r with
        | none => some (c.left.length + 1, .badBytes, m)
        | some s => if f s = none then some (c.left.length + 1, .badBytes, msg s) else none) := by
  cases r with
  | none =>
    obtain ⟨d, u, h1, h2⟩ := fails_curr (α := Bytes) hc .badBytes
    exact ⟨d, u, by simp only [P.bind_apply, P.orFail, h1], h2⟩
  | some a => exact str_ends hc (f a) (msg a)

theorem next_ends {c : LineCtx} (hc : AtTok c) (f : Bytes → Option Bytes) (m : Bytes) (msg : Bytes → Bytes) :
    EndsAt (do
      P.addKey
      let l ← P.mustRead
      let val ← P.orFail (f l) .badBytes
      P.addStr
      Pure.pure val : P Bytes) c c.left.tail (match c.left with
        | [] => some (1, .missingArg, m)
        | w :: ws => if f w = none then some (ws.length + 1, .badBytes, msg w) else none) := by
  have hk : P.addKey c = .ok () { c with keys := c.keys ++ [c.curr] } := rfl
  have hg : Quietly c { c with keys := c.keys ++ [c.curr] } := ⟨rfl, rfl, rfl⟩
  have hc' : Mid { c with keys := c.keys ++ [c.curr] } := (atTok_of hc rfl rfl : AtTok { c with keys := c.keys ++ [c.curr] }).toMid
  rcases must_next _ hc' with ⟨h1, h2⟩ | ⟨w, d, h1, h2, h3, h4, h5⟩
  · change c.left = [] at h1
    rw [h1]
    refine Fails.after hk hg (Fails.bind ?_)
    unfold P.mustRead
    exact h2.bind
  · change c.left = _ at h1
    rw [h1]
    have hm : P.mustRead { c with keys := c.keys ++ [c.curr] } = .ok w d := by
      unfold P.mustRead
      rw [P.bind_apply, h3]
      show Out.ok d.text d = _
      rw [h2]
    have h6 := str_ends h4 (f w) (msg w)
    dsimp only [List.tail_cons]
    by_cases hf : f w = none
    · rw [if_pos hf] at h6 ⊢
      exact Fails.after hk hg (Fails.after hm h5 h6)
    · rw [if_neg hf] at h6 ⊢
      obtain ⟨b, x, h7, h8, h9, h10⟩ := h6
      exact ⟨b, x, by rw [P.bind_apply, hk]; dsimp only; rw [P.bind_apply, hm]; exact h7, h8, hg.trans (h5.trans h9), h10⟩

theorem at_bytes (name : Bytes) : AtArg e addrOk P.parseBytes name .bytes := by
  intro c hc
  show EndsAt _ c (if takesTwo .bytes c.text then c.left.tail else c.left) (bytesError e c.text c.left)
  have hsh : P.parseBytes c = (if hasPrefix c.text b!"base32(" || hasPrefix c.text b!"b32(" then (do
      let body ← orFail (parenBody c.text) .badBytes
      let val ← orFail (base32DecodeAnyPadding body) .badBytes
      addStr
      pure val : P Bytes)
    else if hasPrefix c.text b!"base64(" || hasPrefix c.text b!"b64(" then (do
      let body ← orFail (parenBody c.text) .badBytes
      let val ← orFail (b64Decode body) .badBytes
      addStr
      pure val)
    else if hasPrefix c.text b!"0x" then (do
      let val ← orFail (hexDecode (c.text.drop 2)) .badBytes
      addStr
      pure val)
    else if c.text = b!"base32" ∨ c.text = b!"b32" then (do
      addKey
      let l ← mustRead
      let val ← orFail (base32DecodeAnyPadding l) .badBytes
      addStr
      pure val)
    else if c.text = b!"base64" ∨ c.text = b!"b64" then (do
      addKey
      let l ← mustRead
      let val ← orFail (b64Decode l) .badBytes
      addStr
      pure val)
    else if c.text.length > 1 ∧ c.text.head? = some chQuote ∧ c.text.getLast? = some chQuote then
      match parseStringLiteral c.text with
      | .ok val => (do addStr; pure val)
      | .err => failCurr .badBytes
      | .crash => fun _ => .crash
    else failCurr .badBytes) c := rfl
  have congr : ∀ {m m' : P Bytes} {rest x}, m c = m' c → EndsAt m' c rest x → EndsAt m c rest x := by
    intro m m' rest x h1 h2
    cases x with
    | none => obtain ⟨a, d, h3, h4⟩ := h2; exact ⟨a, d, h1.trans h3, h4⟩
    | some q => obtain ⟨d, u, h3, h4⟩ := h2; exact ⟨d, u, h1.trans h3, h4⟩
  refine congr hsh ?_
  clear hsh congr
  have two : takesTwo .bytes c.text = true ↔ (c.text = b!"base32" ∨ c.text = b!"b32") ∨ (c.text = b!"base64" ∨ c.text = b!"b64") := by
    simp [takesTwo, encodingWords, or_assoc]
  unfold bytesError
  dsimp only
  split
  · rename_i h
    rw [if_neg (fun h' => ?_)]
    · exact paren_ends hc _ _ _ _
    · rcases two.1 h' with (h' | h') | (h' | h') <;> (rw [h'] at h; revert h; decide)
  split
  · rename_i h
    rw [if_neg (fun h' => ?_)]
    · exact paren_ends hc _ _ _ _
    · rcases two.1 h' with (h' | h') | (h' | h') <;> (rw [h'] at h; revert h; decide)
  split
  · rename_i h
    rw [if_neg (fun h' => ?_)]
    · exact str_ends hc _ _
    · rcases two.1 h' with (h' | h') | (h' | h') <;> (rw [h'] at h; revert h; decide)
  split
  · rename_i h
    rw [if_pos (two.2 (.inl h))]
    exact next_ends hc _ _ _
  split
  · rename_i h
    rw [if_pos (two.2 (.inr h))]
    exact next_ends hc _ _ _
  rename_i h1 h2
  rw [if_neg (fun h' => (two.1 h').elim h1 h2)]
  split
  · rename_i hq
    cases hs : parseStringLiteral c.text with
    | ok val => exact ⟨val, _, rfl, atTok_of hc rfl rfl, ⟨rfl, rfl, rfl⟩, rfl⟩
    | err => exact fails_curr hc .badBytes
    | crash => exact absurd hs (parseStringLiteral_no_crash c.text hc.text_ne)
  · exact fails_curr hc .badBytes

theorem next_bytes (name : Bytes) : NextArg e addrOk P.mustReadBytes name .bytes := AtArg.must (at_bytes name)

/-! ## Operands one after the other -/

theorem walk_behind (v : Nat) (as : List DocArg) (ty : ArgType) (w : Bytes) (ws : List Bytes) :
    walkArgs e addrOk v as (takesTwo ty w) ws = walkArgs e addrOk v as false (behind ty w ws) := by
  unfold behind
  cases takesTwo ty w with
  | false => rfl
  | true =>
    cases ws with
    | nil => cases as <;> rfl
    | cons x ws => cases as <;> rfl

theorem walk_cons (v : Nat) (a : DocArg) (as : List DocArg) (w : Bytes) (ws : List Bytes) :
    walkArgs e addrOk v (a :: as) false (w :: ws) = match argError e addrOk v a.name a.type w ws with
      | some x => some x
      | none => walkArgs e addrOk v (if a.array then a :: as else as) false (behind a.type w ws) := by
  rw [← walk_behind]
  rfl

theorem Walks.bind {α β : Type} {m : P α} {f : α → P β} {name : Bytes} {ty : ArgType} {as : List DocArg} (h : NextArg e addrOk m name ty)
    (hf : ∀ a, Walks e addrOk (f a) as) : Walks e addrOk (m >>= f) (⟨name, ty, false, false⟩ :: as) := by
  intro c hc
  obtain ⟨h1, h2⟩ := h c hc
  cases hl : c.left with
  | nil => exact (h1 hl).bind
  | cons w ws =>
    have h3 := h2 w ws hl
    rw [walk_cons]
    dsimp only
    revert h3
    cases argError e addrOk c.version name ty w ws with
    | some x => exact fun h3 => Fails.bind h3
    | none =>
      rintro ⟨a, d, h4, h5, h6, h7⟩
      have h8 := hf a d h5
      rw [h6.version, h7] at h8
      simp only [Bool.false_eq_true, if_false]
      revert h8
      cases walkArgs e addrOk c.version as false (behind ty w ws) with
      | some x => exact fun h8 => Fails.after h4 h6 h8
      | none =>
        rintro ⟨b, x, h9, h10⟩
        exact ⟨b, x, by rw [P.bind_apply, h4]; exact h9, h10.trans h6.diag⟩

theorem Walks.maybe {β : Type} {f : Option Nat → P β} {name : Bytes} {as : List DocArg} (hf : ∀ a, Walks e addrOk (f (some a)) as)
    (h0 : ∀ c, ∃ a d, f none c = .ok a d ∧ d.diag = c.diag) :
    Walks e addrOk (P.maybeReadUint8 >>= f) (⟨name, .uint8, false, true⟩ :: as) := by
  intro c hc
  rcases scan_left c hc with ⟨d, w, h1, h2, h3, h4, h5⟩ | ⟨d, h1, h2, h3, h4, h5, h6⟩
  · have hg : Quietly c d := by rw [h5]; exact ⟨rfl, rfl, rfl⟩
    have h6 := at_uint8 (e := e) (addrOk := addrOk) name d h2
    rw [h4, hg.version] at h6
    have hm : ∀ x, (P.maybeReadUint8 >>= f) c = x ↔ (P.parseUint8 >>= fun v => f (some v)) d = x := by
      intro x
      unfold P.maybeReadUint8
      simp only [P.bind_apply, h1, if_true]
      cases P.parseUint8 d <;> rfl
    rw [h3, walk_cons]
    dsimp only
    revert h6
    cases argError e addrOk c.version name .uint8 w d.left with
    | some x =>
      intro h6
      obtain ⟨y, u, h7, h8, h9⟩ := Fails.bind (f := fun v => f (some v)) h6
      exact ⟨y, u, (hm _).2 h7, by rw [← hg.ts]; exact h8, by rw [h9, hg.diag]⟩
    | none =>
      rintro ⟨a, y, h7, h8, h9, h10⟩
      have h11 := hf a y h8.toMid
      rw [h9.version, hg.version, h10] at h11
      simp only [Bool.false_eq_true, if_false]
      revert h11
      cases walkArgs e addrOk c.version as false (behind .uint8 w d.left) with
      | some x =>
        intro h11
        obtain ⟨z, u, h12, h13, h14⟩ := Fails.after (f := fun v => f (some v)) h7 h9 h11
        exact ⟨z, u, (hm _).2 h12, by rw [← hg.ts]; exact h13, by rw [h14, hg.diag]⟩
      | none =>
        rintro ⟨b, z, h12, h13⟩
        exact ⟨b, z, (hm _).2 (by rw [P.bind_apply, h7]; exact h12), h13.trans ((hg.trans h9).diag)⟩
  · have hdi : d.diag = c.diag := by rcases h6 with rfl | rfl <;> rfl
    rw [h3]
    show ∃ a x, _ = _ ∧ _
    obtain ⟨a, x, h7, h8⟩ := h0 d
    refine ⟨a, x, ?_, h8.trans hdi⟩
    unfold P.maybeReadUint8
    simp only [P.bind_apply, h1, Bool.false_eq_true, if_false]
    exact h7

theorem walks_emit (o : Op) : Walks e addrOk (P.emit o) [] := by
  intro c _
  have : walkArgs e addrOk c.version [] false c.left = none := by cases c.left <;> rfl
  rw [this]
  exact ⟨(), _, rfl, rfl⟩

/-- The loop of a list. -/
theorem walks_loop {α : Type} {m : P α} {name : Bytes} {ty : ArgType} (h : AtArg e addrOk m name ty) :
    ∀ (fuel : Nat) (c : LineCtx), Mid c → c.left.length < fuel →
      match walkArgs e addrOk c.version [⟨name, ty, true, false⟩] false c.left with
      | some (n, why, _) => Fails (P.scanLoop m fuel) c n why
      | none => ∃ a d, P.scanLoop m fuel c = .ok a d ∧ d.diag = c.diag := by
  intro fuel
  induction fuel with
  | zero => intro c _ hl; omega
  | succ fuel ih =>
    intro c hc hlen
    rcases scan_left c hc with ⟨d, w, h1, h2, h3, h4, h5⟩ | ⟨d, h1, h2, h3, h4, h5, h6⟩
    · have hg : Quietly c d := by rw [h5]; exact ⟨rfl, rfl, rfl⟩
      have h6 := h d h2
      rw [h4, hg.version] at h6
      have hm : P.scanLoop m (fuel + 1) c = (m >>= fun a => P.scanLoop m fuel >>= fun as => pure (a :: as)) d := by
        show (P.scan >>= fun ok => if ok then m >>= fun a => P.scanLoop m fuel >>= fun as => pure (a :: as) else pure []) c = _
        rw [P.bind_apply, h1]
        rfl
      rw [h3, walk_cons]
      dsimp only
      revert h6
      cases argError e addrOk c.version name ty w d.left with
      | some x =>
        intro h6
        obtain ⟨y, u, h7, h8, h9⟩ := Fails.bind (f := fun a => P.scanLoop m fuel >>= fun as => pure (a :: as)) h6
        exact ⟨y, u, hm.trans h7, by rw [← hg.ts]; exact h8, by rw [h9, hg.diag]⟩
      | none =>
        rintro ⟨a, y, h7, h8, h9, h10⟩
        have hle : y.left.length < fuel := by
          have : (behind ty w d.left).length ≤ d.left.length := by
            unfold behind
            split
            · rw [List.length_tail]; omega
            · exact Nat.le_refl _
          rw [h3, List.length_cons] at hlen
          rw [h10]; omega
        have h11 := ih y h8.toMid hle
        rw [h9.version, hg.version, h10] at h11
        simp only [if_true]
        revert h11
        cases walkArgs e addrOk c.version [⟨name, ty, true, false⟩] false (behind ty w d.left) with
        | some x =>
          intro h11
          obtain ⟨z, u, h12, h13, h14⟩ := Fails.after (f := fun a => P.scanLoop m fuel >>= fun as => pure (a :: as)) h7 h9 h11.bind
          exact ⟨z, u, hm.trans h12, by rw [← hg.ts]; exact h13, by rw [h14, hg.diag]⟩
        | none =>
          rintro ⟨b, z, h12, h13⟩
          refine ⟨a :: b, z, hm.trans ?_, h13.trans ((hg.trans h9).diag)⟩
          rw [P.bind_apply, h7]
          show (P.scanLoop m fuel >>= fun as => pure (a :: as)) y = _
          rw [P.bind_apply, h12]
          rfl
    · have hdi : d.diag = c.diag := by rcases h6 with rfl | rfl <;> rfl
      rw [h3]
      refine ⟨[], d, ?_, hdi⟩
      show (P.scan >>= fun ok => if ok then m >>= fun a => P.scanLoop m fuel >>= fun as => pure (a :: as) else pure []) c = _
      rw [P.bind_apply, h1]
      rfl

theorem Walks.array {α : Type} {m : P α} {f : List α → Op} {name : Bytes} {ty : ArgType} (h : AtArg e addrOk m name ty) :
    Walks e addrOk (P.readArray m >>= fun vs => P.emit (f vs)) [⟨name, ty, true, false⟩] := by
  intro c hc
  have h1 := walks_loop h (c.ts.length + 1) c hc (Nat.lt_succ_of_le (left_length c))
  revert h1
  cases walkArgs e addrOk c.version [⟨name, ty, true, false⟩] false c.left with
  | some x => exact fun h1 => Fails.bind (m := P.readArray m) h1
  | none =>
    rintro ⟨a, d, h2, h3⟩
    have h2' : P.readArray m c = .ok a d := h2
    refine ⟨(), { d with ops := d.ops ++ [f a] }, ?_, h3⟩
    rw [P.bind_apply, h2']
    rfl

theorem at_labels (name : Bytes) : AtArg e addrOk (do
    let t ← P.text
    P.addRef
    pure t) name .label := fun c hc => ⟨c.text, { c with refs := c.refs ++ [c.curr] }, rfl, atTok_of hc rfl rfl, ⟨rfl, rfl, rfl⟩, rfl⟩

theorem at_numbers (name : Bytes) : AtArg e addrOk (do
    let i ← P.parseUint64
    P.addNum
    pure i) name .uint64 := by
  intro c hc
  have h := at_uint64 (e := e) (addrOk := addrOk) name c hc
  revert h
  cases argError e addrOk c.version name .uint64 c.text c.left with
  | some x => exact fun h => Fails.bind h
  | none =>
    rintro ⟨a, d, h1, h2, h3, h4⟩
    exact ⟨a, { d with nums := d.nums ++ [d.curr] }, by rw [P.bind_apply, h1]; rfl, atTok_of h2 rfl rfl, ⟨h3.ts, h3.version, h3.diag⟩, h4⟩

/-- What a parse function reads. -/
def Shape.named (sh : Shape) (names : List Bytes) : List DocArg :=
  (names.zip (sh.args.zip sh.optionals)).map fun p => ⟨p.1, p.2.1.type, p.2.1.array, p.2.2⟩

theorem walks_shape (sh : Shape) (names : List Bytes) (hn : names.length = sh.args.length) :
    Walks e addrOk (P.parseShape addrOk sh) (sh.named names) := by
  have em := fun o => walks_emit (e := e) (addrOk := addrOk) o
  have one : names.length = 1 → ∃ a, names = [a] := fun h => List.length_eq_one_iff.1 h
  have two : names.length = 2 → ∃ a b, names = [a, b] := fun h => by
    match names, h with
    | [a, b], _ => exact ⟨a, b, rfl⟩
  have three : names.length = 3 → ∃ a b c, names = [a, b, c] := fun h => by
    match names, h with
    | [a, b, c], _ => exact ⟨a, b, c, rfl⟩
  cases sh with
  | plain k => obtain rfl := List.length_eq_zero_iff.1 hn; exact em _
  | u8 k => obtain ⟨a, rfl⟩ := one hn; exact .bind (next_uint8 a) fun _ => em _
  | u8u8 k => obtain ⟨a, b, rfl⟩ := two hn; exact .bind (next_uint8 a) fun _ => .bind (next_uint8 b) fun _ => em _
  | i8 k => obtain ⟨a, rfl⟩ := one hn; exact .bind (next_int8 a) fun _ => em _
  | field r k => obtain ⟨a, rfl⟩ := one hn; exact .bind (next_field r a) fun _ => em _
  | fieldIdx k => obtain ⟨a, b, rfl⟩ := two hn; exact .bind (next_field _ a) fun _ => .bind (next_uint8 b) fun _ => em _
  | fieldOptIdx k k' =>
    obtain ⟨a, b, rfl⟩ := two hn
    exact .bind (next_field _ a) fun _ => .maybe (fun _ => em _) fun c => ⟨(), _, rfl, rfl⟩
  | groupField c k => obtain ⟨a, b, rfl⟩ := two hn; exact .bind (next_uint8 a) fun _ => .bind (next_field _ b) fun _ => em _
  | gtxn =>
    obtain ⟨a, b, c, rfl⟩ := three hn
    exact .bind (next_uint8 a) fun _ => .bind (next_field _ b) fun _ => .maybe (fun _ => em _) fun c => ⟨(), _, rfl, rfl⟩
  | gtxna =>
    obtain ⟨a, b, c, rfl⟩ := three hn
    exact .bind (next_uint8 a) fun _ => .bind (next_field _ b) fun _ => .bind (next_uint8 c) fun _ => em _
  | gitxna =>
    obtain ⟨a, b, c, rfl⟩ := three hn
    exact .bind (next_uint64 a) fun _ => .bind (next_field _ b) fun _ => .bind (next_uint8 c) fun _ => em _
  | int => obtain ⟨a, rfl⟩ := one hn; exact .bind (next_const a) fun _ => em _
  | pushint => obtain ⟨a, rfl⟩ := one hn; exact .bind (next_uint64 a) fun _ => em _
  | byte => obtain ⟨a, rfl⟩ := one hn; exact .bind (next_bytes a) fun _ => em _
  | pushbytes => obtain ⟨a, rfl⟩ := one hn; exact .bind (next_bytes a) fun _ => em _
  | addr => obtain ⟨a, rfl⟩ := one hn; exact .bind (next_addr a) fun _ => em _
  | method => obtain ⟨a, rfl⟩ := one hn; exact .bind (next_signature a) fun _ => em _
  | intcblock => obtain ⟨a, rfl⟩ := one hn; exact .array (at_numbers a)
  | pushints => obtain ⟨a, rfl⟩ := one hn; exact .array (at_numbers a)
  | bytecblock => obtain ⟨a, rfl⟩ := one hn; exact .array (at_bytes a)
  | pushbytess => obtain ⟨a, rfl⟩ := one hn; exact .array (at_bytes a)
  | branch k => obtain ⟨a, rfl⟩ := one hn; exact .bind (next_label a) fun _ => em _
  | switch => obtain ⟨a, rfl⟩ := one hn; exact .array (at_labels a)
  | match_ => obtain ⟨a, rfl⟩ := one hn; exact .array (at_labels a)
  | replace =>
    obtain ⟨a, rfl⟩ := one hn
    exact .maybe (fun _ => em _) fun c => ⟨(), _, rfl, rfl⟩
  | extract =>
    obtain ⟨a, b, rfl⟩ := two hn
    exact .maybe (fun _ => .bind (next_uint8 b) fun _ => em _) fun c => ⟨(), _, rfl, rfl⟩

end
end Teal
