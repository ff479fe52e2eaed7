import Verif.Props.Corrupt
import Verif.Props.Docs
import Verif.Lemmas.Clean

/-!
# The texts for people are UTF-8 (C103)
-/

namespace Teal.Props

open Teal Spec Teal.Lsp Teal.Lsp.Spec Teal.WireSpec Teal.JsonSpec Teal.Wire

/-- The texts of errors are UTF-8. -/
structure CleanErrors (e : ErrorTexts) : Prop where
  uint8 : ∀ s, Utf8 (e.uint8 s)
  uint64 : ∀ s, Utf8 (e.uint64 s)
  int8 : ∀ s, Utf8 (e.int8 s)
  base32 : ∀ s, Utf8 (e.base32 s)
  base64 : ∀ s, Utf8 (e.base64 s)
  hex : ∀ s, Utf8 (e.hex s)
  string : ∀ s, Utf8 (e.string s)
  addr : ∀ s, Utf8 (e.addr s)

theorem utf8_lit {s : Bytes} (h : (s.all (· < 128)) = true) : Utf8 s := utf8_of_bool h

theorem numText_utf8 {fn : Bytes} (hf : Utf8 fn) {q : Bytes → Bytes} (hq : ∀ x, Utf8 (q x)) (s : Bytes) (w : Option NumWhy) : Utf8 (numText fn q s w) := by
  unfold numText
  cases w with
  | none => exact .nil
  | some w =>
    refine utf8_append (utf8_append (utf8_append (utf8_append (utf8_append (utf8_lit (by decide)) hf) (utf8_lit (by decide))) (hq s)) (utf8_lit (by decide))) ?_
    cases w <;> exact utf8_lit (by decide)

theorem byteRune_utf8 (c : UInt8) : Utf8 (byteRune c) := by
  have h : ∀ c : UInt8, byteRune c = utf8 c.toNat := by
    have : ∀ c : UInt8, decide (byteRune c = utf8 c.toNat) = true := by apply forall_byte; decide +kernel
    intro c; simpa using this c
  rw [h]
  have hs : Scalar c.toNat := by
    have := c.toNat_lt
    unfold Scalar; omega
  have := Utf8.cons hs .nil
  rwa [List.append_nil] at this

theorem invalidByte_utf8 (c : UInt8) : Utf8 (invalidByte c) := by
  unfold invalidByte
  refine utf8_append (utf8_append (utf8_lit (by decide)) (ascii_utf8 ?_)) ?_
  · have : ∀ c : UInt8, ([upperHex (c.toNat / 16), upperHex (c.toNat % 16)].all (· < 128)) = true := by apply forall_byte; decide +kernel
    exact fun x hx => by simpa using List.all_eq_true.1 (this c) x hx
  · split
    · exact utf8_append (utf8_append (utf8_lit (by decide)) (byteRune_utf8 c)) (utf8_lit (by decide))
    · exact .nil

theorem getD_utf8 {o : Option Bytes} (h : ∀ m, o = some m → Utf8 m) : Utf8 (o.getD []) := by
  cases o with
  | none => exact .nil
  | some m => exact h m rfl

theorem hexWhy_utf8 (s : Bytes) : ∀ m, hexWhy s = some m → Utf8 m := by
  fun_induction hexWhy s with
  | case1 => intro m h; cases h
  | case2 c h => intro m h; cases h; exact invalidByte_utf8 c
  | case3 c h => intro m h; cases h; exact utf8_lit (by decide)
  | case4 p q s h => intro m h; cases h; exact invalidByte_utf8 p
  | case5 p q s h1 h => intro m h; cases h; exact invalidByte_utf8 q
  | case6 p q s h1 h2 ih => exact ih

theorem stringWhy_utf8 {q : Bytes → Bytes} (hq : ∀ x, Utf8 (q x)) (s : Bytes) : ∀ esc hex m, stringWhy q s esc hex = some m → Utf8 m := by
  intro esc hex
  fun_induction stringWhy q s esc hex with
  | case1 => intro m h; cases h; exact utf8_lit (by decide)
  | case2 => intro m h; cases h
  | case3 => intro m h; cases h; exact utf8_lit (by decide)
  | case4 => rename_i ih; exact ih
  | case5 => intro m h; cases h; exact utf8_append (utf8_lit (by decide)) (byteRune_utf8 _)
  | case6 => rename_i ih; exact ih
  | case7 => intro m h; cases h; exact utf8_lit (by decide)
  | case8 => intro m h; cases h; exact numText_utf8 (utf8_lit (by decide)) hq _ _
  | case9 => rename_i ih; exact ih
  | case10 => rename_i ih; exact ih

theorem goErrors_clean {q addr : Bytes → Bytes} (hq : ∀ x, Utf8 (q x)) (ha : ∀ x, Utf8 (addr x)) : CleanErrors (goErrors q addr) where
  uint8 _ := numText_utf8 (utf8_lit (by decide)) hq _ _
  uint64 _ := numText_utf8 (utf8_lit (by decide)) hq _ _
  int8 _ := numText_utf8 (utf8_lit (by decide)) hq _ _
  base32 s := by
    show Utf8 (b32Text s)
    unfold b32Text
    cases b32Offset s with
    | none => exact .nil
    | some n => exact utf8_append (utf8_lit (by decide)) (formatUint_utf8 n)
  base64 s := by
    show Utf8 (b64Text s)
    unfold b64Text
    cases b64Offset s with
    | none => exact .nil
    | some n => exact utf8_append (utf8_lit (by decide)) (formatUint_utf8 n)
  hex s := getD_utf8 (hexWhy_utf8 s)
  string s := by
    show Utf8 (stringText q s)
    unfold stringText
    split
    · exact utf8_lit (by decide)
    · exact getD_utf8 (stringWhy_utf8 hq _ false false)
  addr := ha

theorem needText_utf8 (n v : Nat) : Utf8 (needText n v) :=
  utf8_append (utf8_append (utf8_append (utf8_append (utf8_lit (by decide)) (formatUint_utf8 n)) (utf8_lit (by decide))) (formatUint_utf8 v)) (utf8_lit (by decide))

variable {e : ErrorTexts} (he : CleanErrors e)
include he

theorem fieldError_utf8 {g : FieldGroup} {v : Nat} {s m : Bytes} (h : fieldError e g v s = some m) : Utf8 m := by
  unfold fieldError at h
  split at h
  · split at h
    · cases h; exact needText_utf8 _ _
    · cases h
  · split at h
    · cases h; exact utf8_append (utf8_lit (by decide)) (he.uint8 s)
    · cases h

theorem txnFieldError_utf8 {c : FieldContext} {v : Nat} {s m : Bytes} (h : txnFieldError e c v s = some m) : Utf8 m := by
  unfold txnFieldError at h
  split at h
  · split at h
    · cases h; exact utf8_lit (by decide)
    · split at h
      · cases h; exact utf8_lit (by decide)
      · dsimp only at h
        have key : ∀ k, (if k > v then some (needText k v) else none) = some m → Utf8 m := by
          intro k h
          split at h
          · cases h; exact needText_utf8 _ _
          · cases h
        exact key _ h
  · split at h
    · cases h; exact utf8_append (utf8_lit (by decide)) (he.uint8 s)
    · cases h

theorem bytesError_utf8 {arg : Bytes} {ws : List Bytes} (ha : Utf8 arg) {x : Nat × ParseWhy × Bytes} (h : bytesError e arg ws = some x) : Utf8 x.2.2 := by
  unfold bytesError at h
  dsimp only at h
  repeat' split at h
  all_goals first
    | (cases h; done)
    | (cases h; exact he.base32 _)
    | (cases h; exact he.base64 _)
    | (cases h; exact he.hex _)
    | (cases h; exact he.string _)
    | (cases h; exact utf8_append (a := b!"byte arg did not parse: ") (utf8_lit (by decide)) ha)
    | (cases h; exact utf8_lit (s := b!"byte base32 arg lacks close paren") (by decide))
    | (cases h; exact utf8_lit (s := b!"byte base64 arg lacks close paren") (by decide))
    | (cases h; exact utf8_lit (s := b!"missing arg: literal") (by decide))

theorem argError_utf8 {addrOk : Bytes → Bool} {v : Nat} {name : Bytes} {ty : ArgType} {w : Bytes} {ws : List Bytes} (hn : Utf8 name) (hw : Utf8 w)
    {x : Nat × ParseWhy × Bytes} (h : argError e addrOk v name ty w ws = some x) : Utf8 x.2.2 := by
  have two : ∀ {a b : Bytes}, (a.all (· < 128)) = true → Utf8 b → Utf8 (a ++ name ++ b!": " ++ b) := fun ha hb =>
    utf8_append (utf8_append (utf8_append (utf8_lit ha) hn) (utf8_lit (by decide))) hb
  unfold argError at h
  dsimp only at h
  cases ty with
  | constInt => dsimp only at h; split at h <;> cases h; exact two (by decide) (he.uint64 w)
  | uint64 => dsimp only at h; split at h <;> cases h; exact two (by decide) (he.uint64 w)
  | uint8 => dsimp only at h; split at h <;> cases h; exact two (by decide) (he.uint8 w)
  | int8 => dsimp only at h; split at h <;> cases h; exact two (by decide) (he.int8 w)
  | bytes => exact bytesError_utf8 he hw h
  | label => cases h
  | signature => dsimp only at h; split at h <;> cases h; exact utf8_lit (s := b!"missing quotes") (by decide)
  | addr => dsimp only at h; split at h <;> cases h; exact he.addr w
  | field r =>
    obtain ⟨m, hm, rfl⟩ := Option.map_eq_some_iff.1 h
    refine utf8_append ?_ ?_
    · cases r with
      | group g =>
        cases g <;> simp only [FieldReader.prefix_] <;> first
          | exact utf8_append (utf8_append (a := b!"failed to parse EC group field: ") (utf8_lit (by decide)) hn) (utf8_lit (by decide))
          | exact utf8_append (utf8_append (a := b!"failed to parse base64 encoding field: ") (utf8_lit (by decide)) hn) (utf8_lit (by decide))
          | exact utf8_append (utf8_append (a := b!"failed to parse JSON ref field: ") (utf8_lit (by decide)) hn) (utf8_lit (by decide))
          | exact utf8_append (utf8_append (a := b!"failed to parse ESCDS curve index: ") (utf8_lit (by decide)) hn) (utf8_lit (by decide))
          | exact .nil
      | txn c => exact utf8_append (utf8_append (utf8_lit (by decide)) hn) (utf8_lit (by decide))
    · cases r with
      | group g => simp only [readerError] at hm; exact fieldError_utf8 he hm
      | txn c => simp only [readerError] at hm; exact txnFieldError_utf8 he hm

theorem walkArgs_utf8 {addrOk : Bytes → Bool} {v : Nat} : ∀ {ws : List Bytes} {as : List DocArg} {skip : Bool} {x : Nat × ParseWhy × Bytes},
    (∀ a ∈ as, Utf8 a.name) → (∀ w ∈ ws, Utf8 w) → walkArgs e addrOk v as skip ws = some x → Utf8 x.2.2 := by
  intro ws
  induction ws with
  | nil =>
    intro as skip x ha _ h
    cases as with
    | nil => simp [walkArgs] at h
    | cons a as =>
      have h : (if a.array || a.optional then none else some (1, ParseWhy.missingArg, b!"missing arg: " ++ a.name)) = some x := by
        cases skip <;> simpa only [walkArgs] using h
      split at h <;> cases h
      exact utf8_append (utf8_lit (by decide)) (ha a List.mem_cons_self)
  | cons w ws ih =>
    intro as skip x ha hw h
    have hw' : ∀ y ∈ ws, Utf8 y := fun y hy => hw y (List.mem_cons_of_mem _ hy)
    cases skip with
    | true =>
      have h : walkArgs e addrOk v as false ws = some x := by cases as <;> simpa only [walkArgs] using h
      exact ih ha hw' h
    | false =>
      cases as with
      | nil => simp [walkArgs] at h
      | cons a as =>
        rw [walkArgs] at h
        split at h
        · rename_i y hy
          cases h
          exact argError_utf8 he (ha a List.mem_cons_self) (hw w List.mem_cons_self) hy
        · dsimp only at h
          refine ih ?_ hw' h
          split
          · exact ha
          · exact fun b hb => ha b (List.mem_cons_of_mem _ hb)

omit he in
theorem readArgs_utf8 (en : OpEntry) : ∀ a ∈ en.readArgs, Utf8 a.name := by
  have key : ∀ p ∈ operandNames, ∀ n ∈ p.2, (n.all (· < 128)) = true := by decide +kernel
  intro a ha
  unfold OpEntry.readArgs at ha
  obtain ⟨p, hp, rfl⟩ := List.mem_map.1 ha
  have h1 := (List.of_mem_zip hp).1
  cases hf : operandNames.find? fun p => p.1 == en.name with
  | none => rw [hf] at h1; simp at h1
  | some p' =>
    rw [hf] at h1
    exact utf8_lit (key p' (List.mem_of_find?_eq_some hf) _ h1)

theorem operandError_utf8 {addrOk : Bytes → Bool} {v : Nat} {w : Bytes} {ws : List Bytes} {x : Nat × ParseWhy × Bytes}
    (hw : ∀ y ∈ ws, Utf8 y) (h : operandError e addrOk v w ws = some x) : Utf8 x.2.2 := by
  unfold operandError at h
  split at h
  · cases h
  split at h
  · unfold pragmaError at h
    split at h
    · cases h; exact utf8_lit (by decide)
    · split at h <;> cases h
      exact utf8_lit (by decide)
    · split at h <;> cases h
      exact utf8_append (utf8_lit (by decide)) (he.uint64 _)
  · split at h
    · rename_i en _
      exact walkArgs_utf8 he (readArgs_utf8 en) hw h
    · cases h

theorem operandErrors_utf8 {addrOk : Bytes → Bool} : ∀ {ls : List (List Token)} {s : Carry}, (∀ l ∈ ls, ∀ t ∈ l, Utf8 t.v) →
    ∀ y ∈ operandErrors e addrOk s ls, ∀ x, y = some x → Utf8 x.2.2 := by
  intro ls
  induction ls with
  | nil => intro s _ y hy; simp [operandErrors] at hy
  | cons l ls ih =>
    intro s hl y hy x hx
    unfold operandErrors at hy
    rcases List.mem_cons.1 hy with rfl | hy
    · have := hl l List.mem_cons_self
      split at hx
      · cases hx
      · split at hx
        · cases hx
        · refine operandError_utf8 he ?_ hx
          intro w hw
          obtain ⟨t, ht, rfl⟩ := List.mem_map.1 hw
          exact this t (List.mem_cons_of_mem _ ht)
    · split at hy
      · simp at hy
      · exact ih (fun l' hl' => hl l' (List.mem_cons_of_mem _ hl')) y hy x hx

omit he in
theorem sourceLines_utf8 {src : Bytes} (hs : Utf8 src) : ∀ l ∈ sourceLines (readTokens src).1, ∀ t ∈ l, Utf8 t.v := by
  intro l hl t ht
  obtain ⟨k, hk⟩ := List.mem_iff_getElem?.1 hl
  obtain ⟨h1, h2⟩ := sourceLines_spec _ (readTokens_seq src)
  have hlt : k < lineCount (readTokens src).1 := by rw [← h1]; exact (List.getElem?_eq_some_iff.1 hk).1
  rw [h2 k hlt] at hk
  cases hk
  unfold lineTokens at ht
  split at ht
  · exact tokens_utf8 hs t (mem_comments.1 ht).1
  · exact tokens_utf8 hs t (mem_words.1 ht).1

theorem operandText_utf8 {src : Bytes} (hs : Utf8 src) (addrOk : Bytes → Bool) (l : Nat) : Utf8 (operandText e addrOk src l) := by
  unfold operandText
  refine getD_utf8 fun m hm => ?_
  obtain ⟨x, hx, rfl⟩ := Option.map_eq_some_iff.1 hm
  cases hg : (operandErrors e addrOk {} (sourceLines (readTokens src).1))[l]? with
  | none => rw [hg] at hx; cases hx
  | some y =>
    rw [hg] at hx
    exact operandErrors_utf8 he (sourceLines_utf8 hs) y (List.mem_of_getElem? hg) x hx

omit he in
/-- **C103** The texts for people are UTF-8 if the document is: those of the documentation, and the messages about operands, whatever the
operands are.  `strconv.Quote` and the message about an address have to be. -/
theorem C103_texts {q addr : Bytes → Bytes} (hq : ∀ x, Utf8 (q x)) (ha : ∀ x, Utf8 (addr x)) {src : Bytes} (hs : Utf8 src) (addrOk : Bytes → Bool) :
    CleanTexts (Docs.texts fun it => operandText (goErrors q addr) addrOk src it.range.start.line.toNat) :=
  (C129_utf8 _).2 fun _ => operandText_utf8 (goErrors_clean hq ha) hs addrOk _

/-- Texts for which this holds. -/
example : (∀ x : Bytes, Utf8 ((fun _ => b!"\"?\"") x)) ∧ Utf8 (b!"byte " ++ [195, 169]) ∧
    operandText (goErrors (fun _ => b!"\"?\"") id) sampleHost.addrOk (b!"byte " ++ [195, 169]) 0 = b!"byte arg did not parse: " ++ [195, 169] := by
  refine ⟨fun _ => utf8_lit (s := b!"\"?\"") (by decide), utf8_append (utf8_lit (by decide)) ?_, by decide +kernel⟩
  exact Utf8.cons (n := 233) (by unfold Scalar; omega) .nil

end Teal.Props
