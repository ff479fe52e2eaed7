import Verif.Lemmas.LangSpec
import Verif.Spec.LangSpec

/-!
# C54: notes on immediates
-/

namespace Teal.Imm
open Spec

theorem ok_bind {α β : Type} (a : α) (f : α → Res β) : (Res.ok a).bind f = f a := rfl

/-- The token of a field. -/
def fieldTok (body : Bytes) : Arg := .field (splitSpace body).1 ((splitSpace body).2.getD (splitSpace body).1) (braced body) none

theorem split_name (body : Bytes) : (splitSpace body).2.getD (splitSpace body).1 = fieldName body := by
  have key : ∀ body : Bytes, (∀ t, (splitSpace body).2 = some t → ∃ u, body.dropWhile (· != 32) = u :: t) ∧
      ((splitSpace body).2 = none → body.dropWhile (· != 32) = [] ∧ (splitSpace body).1 = body) := by
    intro body
    induction body with
    | nil => simp [splitSpace]
    | cons c t ih =>
      by_cases h : c = 32
      · simp [splitSpace, h]
      · rw [splitSpace, if_neg h, List.dropWhile_cons_of_pos (by simpa using h)]
        exact ⟨ih.1, fun h2 => ⟨(ih.2 h2).1, by rw [(ih.2 h2).2]⟩⟩
  unfold fieldName
  cases h : (splitSpace body).2 with
  | none => rw [((key body).2 h).1, Option.getD_none]; exact ((key body).2 h).2
  | some t => obtain ⟨u, hu⟩ := (key body).1 t h; rw [hu]; rfl

theorem takeWhile_stop {close : UInt8} {body rest : Bytes} (h : close ∉ body) :
    (body ++ close :: rest).takeWhile (· != close) = body := by
  rw [List.takeWhile_append_of_pos]
  · simp
  · intro x hx
    simp only [bne_iff_ne, ne_eq]
    rintro rfl
    exact h hx

/-- Scanning over `body` to the character behind it. -/
theorem scan_body {close : UInt8} (hc : close.toNat < 128) {s body rest : Bytes} {i : Nat} (h : s.drop i = body ++ close :: rest)
    (hb : close ∉ body) : scanTo close.toNat s (s.length + 1) i = .ok (i + body.length, 1) := by
  have hi : i ≤ s.length := by
    rcases Nat.lt_or_ge s.length i with h1 | h1
    · rw [List.drop_eq_nil_of_le (by omega)] at h
      simp at h
    · exact h1
  rw [scanTo_eq close hc s _ i hi (by omega), h, if_pos (by simp), takeWhile_stop hb]

theorem slice_body {s body rest : Bytes} {i : Nat} (hi : i ≤ s.length) (h : s.drop i = body ++ rest) :
    slice s i (i + body.length) = .ok body := by
  have hl : i + body.length ≤ s.length := by
    have := congrArg List.length h
    simp at this
    omega
  rw [slice, if_pos ⟨by omega, hl⟩, List.drop_take, h]
  simp

theorem field_text (body rest : Bytes) (h : 125 ∉ body) :
    parseFieldArg (123 :: (body ++ 125 :: rest)) = .ok (fieldTok body, body.length + 2) := by
  rw [parseFieldArg, decodeRune_ascii 123 _ (by decide), if_neg (by decide)]
  have hd : (123 :: (body ++ 125 :: rest)).drop 1 = body ++ 125 :: rest := rfl
  rw [show (scanTo 125 (123 :: (body ++ 125 :: rest)) _ 1) = _ from scan_body (close := 125) (by decide) hd h]
  show ((slice (123 :: (body ++ 125 :: rest)) 1 (1 + body.length)).bind _) = _
  rw [slice_body (by simp) hd]
  show Res.ok (_, 1 + body.length + 1) = _
  rw [show 1 + body.length + 1 = body.length + 2 by omega]
  rfl

theorem parse_field_text (k : Nat) (body rest : Bytes) (h : 125 ∉ body) :
    parseField (k + 1) (123 :: (body ++ 125 :: rest)) = .ok (fieldTok body, body.length + 2) := by
  rw [parseField, decodeRune_ascii 123 _ (by decide), if_neg (by decide), if_pos (by decide), field_text body rest h]

/-- The token of `({sub} bytes)`. -/
def bytesTok (sub : Bytes) : Arg := .field [] b!"bytes" b!"{bytes}" (some (fieldTok sub))

theorem parse_bytes_text (k : Nat) (sub rest : Bytes) (h : 125 ∉ sub) (h' : 41 ∉ sub) :
    parseField (k + 2) (40 :: ((123 :: (sub ++ b!"} bytes")) ++ 41 :: rest)) = .ok (bytesTok sub, sub.length + 10) := by
  rw [parseField, decodeRune_ascii 40 _ (by decide), if_pos (by decide), parseFieldBytesArg, decodeRune_ascii 40 _ (by decide), if_neg (by decide)]
  have hd : (40 :: ((123 :: (sub ++ b!"} bytes")) ++ 41 :: rest)).drop 1 = (123 :: (sub ++ b!"} bytes")) ++ 41 :: rest := rfl
  have hn : (41 : UInt8) ∉ (123 :: (sub ++ b!"} bytes")) := by simp [h']
  dsimp only
  rw [show (scanTo 41 (40 :: ((123 :: (sub ++ b!"} bytes")) ++ 41 :: rest)) _ 1) = _ from scan_body (close := 41) (by decide) hd hn]
  show ((slice _ 1 (1 + _)).bind _) = _
  rw [slice_body (by simp) hd]
  show ((parseField (k + 1) (123 :: (sub ++ 125 :: b!" bytes"))).bind _) = _
  rw [parse_field_text k sub _ h]
  show ((sliceFrom (123 :: (sub ++ 125 :: b!" bytes")) (sub.length + 2)).bind _) = _
  have hdrop : ∀ n, (123 :: (sub ++ 125 :: b!" bytes")).drop (sub.length + 2 + n) = (b!" bytes").drop n := by
    intro n
    rw [show sub.length + 2 + n = (sub.length + 1 + n) + 1 by omega, List.drop_succ_cons,
      show sub.length + 1 + n = sub.length + (1 + n) by omega, List.drop_append, Nat.add_comm 1 n]
    simp
  rw [sliceFrom, if_pos (by simp)]
  have := hdrop 0
  rw [Nat.add_zero] at this
  show ((skipWhitespace ((123 :: (sub ++ 125 :: b!" bytes")).drop (sub.length + 2))).bind _) = _
  rw [this, skipWhitespace_eq]
  show ((sliceFrom (123 :: (sub ++ 125 :: b!" bytes")) (sub.length + 2 + 1)).bind _) = _
  rw [sliceFrom, if_pos (by simp), hdrop 1]
  show Res.ok (_, _) = _
  congr 2
  simp
  omega

/-- What is between the brackets: an element, a comma and three dots. -/
theorem elements_text {elem : Bytes} {t : Arg} (he : 0 < elem.length) (hp : ∀ rest, parseField ((elem ++ rest).length + 1) (elem ++ rest) = .ok (t, elem.length)) :
    elements (elem ++ b!", ...") ((elem ++ b!", ...").length + 1) 0 [] = .ok [t, .var] := by
  obtain ⟨k, hk⟩ : ∃ k, (elem ++ b!", ...").length + 1 = k + 3 := ⟨elem.length + 3, by simp⟩
  have hlen : (elem ++ b!", ...").length = elem.length + 5 := by simp
  have hd : ∀ n, (elem ++ b!", ...").drop (elem.length + n) = (b!", ...").drop n := by
    intro n; rw [List.drop_append]; simp
  have hf : ∀ n, n ≤ 5 → sliceFrom (elem ++ b!", ...") (elem.length + n) = .ok ((b!", ...").drop n) := by
    intro n hn
    rw [sliceFrom, if_pos (by omega), hd]
  have h0 : sliceFrom (elem ++ b!", ...") elem.length = .ok b!", ..." := hf 0 (by omega)
  rw [hk, elements, if_neg (by omega), sliceFrom, if_pos (by omega), List.drop_zero, ok_bind, hp, ok_bind]
  dsimp only
  rw [Nat.zero_add, h0, ok_bind, skipWhitespace_eq, ok_bind, show ((b!", ...").takeWhile (· == 32)).length = 0 by decide, Nat.add_zero,
    if_pos (by omega), h0, ok_bind, if_neg (by decide), show (decodeRune b!", ...").2 = 1 by decide, hf 1 (by omega), ok_bind,
    skipWhitespace_eq, ok_bind, show (((b!", ...").drop 1).takeWhile (· == 32)).length = 1 by decide, elements, if_neg (by omega),
    show elem.length + 1 + 1 = elem.length + 2 from rfl, hf 2 (by omega), ok_bind]
  rw [show parseField (((b!", ...").drop 2).length + 1) ((b!", ...").drop 2) = .ok (.var, 3) from by rfl, ok_bind]
  dsimp only
  rw [show elem.length + 2 + 3 = elem.length + 5 from rfl, hf 5 (by omega), ok_bind, skipWhitespace_eq, ok_bind,
    show (((b!", ...").drop 5).takeWhile (· == 32)).length = 0 by decide, Nat.add_zero, if_neg (by omega), hf 5 (by omega), ok_bind,
    skipWhitespace_eq, ok_bind, show (((b!", ...").drop 5).takeWhile (· == 32)).length = 0 by decide, Nat.add_zero, elements, if_pos (by omega)]
  rfl

/-- Reading a field at index `i`. -/
theorem read_field {s body rest : Bytes} {i : Nat} (hi : i ≤ s.length) (h : s.drop i = 123 :: (body ++ 125 :: rest)) (hb : 125 ∉ body) :
    readField s i = .ok (fieldTok body, i + (body.length + 2)) := by
  rw [readField, sliceFrom, if_pos hi, ok_bind, h, parse_field_text _ body rest hb, ok_bind]

/-- Reading an array at index `i`. -/
theorem read_array {s v rest : Bytes} {i : Nat} {r : List Arg} (hi : i ≤ s.length) (h : s.drop i = 91 :: (v ++ 93 :: rest)) (hb : 93 ∉ v)
    (hr : elements v (v.length + 1) 0 [] = .ok r) : readArray s i = .ok (.array (braced v) r, i + (v.length + 2)) := by
  have hd : s.drop (i + 1) = v ++ 93 :: rest := by rw [← List.drop_drop, h]; rfl
  have hi' : i + 1 ≤ s.length := by
    have := congrArg List.length h
    simp at this
    omega
  rw [readArray, sliceFrom, if_pos hi, ok_bind, h, decodeRune_ascii 91 _ (by decide), if_neg (by decide)]
  dsimp only
  rw [show scanTo 93 s (s.length + 1) (i + 1) = _ from scan_body (close := 93) (by decide) hd hb, ok_bind]
  dsimp only
  rw [slice_body hi' hd, ok_bind, hr, ok_bind]
  congr 2
  omega

/-- One field of a note, behind `j` spaces. -/
theorem token_field {s body rest : Bytes} {k i j : Nat} {args : List Arg} (h : s.drop i = List.replicate j 32 ++ 123 :: (body ++ 125 :: rest)) (hb : 125 ∉ body) :
    tokenizeFrom s (k + 1) i args = tokenizeFrom s k (i + j + (body.length + 2)) (args ++ [fieldTok body]) ∧
    s.drop (i + j + (body.length + 2)) = rest := by
  have hl := congrArg List.length h
  simp at hl
  have hd : s.drop (i + j) = 123 :: (body ++ 125 :: rest) := by
    rw [← List.drop_drop, h, List.drop_append]
    simp
  refine ⟨?_, ?_⟩
  · rw [tokenizeFrom, if_pos (by omega), sliceFrom, if_pos (by omega), ok_bind, skipWhitespace_eq, ok_bind, h,
      List.takeWhile_append_of_pos (by simp)]
    rw [show (List.replicate j (32 : UInt8) ++ (123 :: (body ++ 125 :: rest)).takeWhile (· == 32)).length = j by simp, sliceFrom, if_pos (by omega), ok_bind,
      hd, decodeRune_ascii 123 _ (by decide), if_pos (by decide), read_field (by omega) hd hb, ok_bind]
  · rw [← List.drop_drop, hd, show body.length + 2 = (body.length + 1) + 1 from rfl, List.drop_succ_cons, List.drop_append]
    simp

/-- One array of a note, behind `j` spaces. -/
theorem token_array {s v rest : Bytes} {k i j : Nat} {args r : List Arg} (h : s.drop i = List.replicate j 32 ++ 91 :: (v ++ 93 :: rest)) (hb : 93 ∉ v)
    (hr : elements v (v.length + 1) 0 [] = .ok r) :
    tokenizeFrom s (k + 1) i args = tokenizeFrom s k (i + j + (v.length + 2)) (args ++ [.array (braced v) r]) ∧
    s.drop (i + j + (v.length + 2)) = rest := by
  have hl := congrArg List.length h
  simp at hl
  have hd : s.drop (i + j) = 91 :: (v ++ 93 :: rest) := by
    rw [← List.drop_drop, h, List.drop_append]
    simp
  refine ⟨?_, ?_⟩
  · rw [tokenizeFrom, if_pos (by omega), sliceFrom, if_pos (by omega), ok_bind, skipWhitespace_eq, ok_bind, h,
      List.takeWhile_append_of_pos (by simp)]
    rw [show (List.replicate j (32 : UInt8) ++ (91 :: (v ++ 93 :: rest)).takeWhile (· == 32)).length = j by simp, sliceFrom, if_pos (by omega), ok_bind,
      hd, decodeRune_ascii 91 _ (by decide), if_neg (by decide), if_pos (by decide), read_array (by omega) hd hb hr, ok_bind]
  · rw [← List.drop_drop, hd, show v.length + 2 = (v.length + 1) + 1 from rfl, List.drop_succ_cons, List.drop_append]
    simp

/-- The tokens of an immediate. -/
def toks : Group → List Arg
  | .one body => [fieldTok body]
  | .bytes body => [fieldTok body, fieldTok b!"bytes"]
  | .array body elem => [fieldTok body, .array (braced (123 :: (elem ++ [125]) ++ b!", ...")) [fieldTok elem, .var]]
  | .arrayBytes body sub => [fieldTok body, .array (braced (40 :: (123 :: (sub ++ b!"} bytes") ++ [41]) ++ b!", ...")) [bytesTok sub, .var]]

/-- One immediate of a note, behind `j` spaces. -/
theorem token_group {g : Group} (hg : g.Ok) {s rest : Bytes} {i j : Nat} (h : s.drop i = List.replicate j 32 ++ (g.text ++ rest)) :
    ∃ i' n, n ≤ 2 ∧ i + n ≤ i' ∧ s.drop i' = rest ∧ i' = i + j + g.text.length ∧
      ∀ k args, tokenizeFrom s (k + n) i args = tokenizeFrom s k i' (args ++ toks g) := by
  cases g with
  | one body =>
    have h1 : s.drop i = List.replicate j 32 ++ 123 :: (body ++ 125 :: rest) := by rw [h]; simp [Group.text]
    exact ⟨i + j + (body.length + 2), 1, by omega, by omega, (token_field (k := 0) (args := []) h1 hg.1).2, by simp [Group.text],
      fun k args => (token_field h1 hg.1).1⟩
  | bytes body =>
    have h1 : s.drop i = List.replicate j 32 ++ 123 :: (body ++ 125 :: (b!" {bytes}" ++ rest)) := by rw [h]; simp [Group.text]
    have h2 := (token_field (k := 0) (args := []) h1 hg.1).2
    have h3 : s.drop (i + j + (body.length + 2)) = List.replicate 1 32 ++ 123 :: (b!"bytes" ++ 125 :: rest) := by rw [h2]; rfl
    refine ⟨_, 2, by omega, ?_, (token_field (k := 0) (args := []) h3 (by decide)).2, by simp [Group.text]; omega, fun k args => ?_⟩
    · simp; omega
    · rw [(token_field h1 hg.1).1, (token_field h3 (by decide)).1]
      simp [toks]
  | array body elem =>
    obtain ⟨⟨hb, -⟩, he, he'⟩ := hg
    have h1 : s.drop i = List.replicate j 32 ++ 123 :: (body ++ 125 :: (b!" [{" ++ elem ++ b!"}, ...]" ++ rest)) := by rw [h]; simp [Group.text]
    have h2 := (token_field (k := 0) (args := []) h1 hb).2
    have h3 : s.drop (i + j + (body.length + 2)) = List.replicate 1 32 ++ 91 :: ((123 :: (elem ++ [125]) ++ b!", ...") ++ 93 :: rest) := by
      rw [h2]; simp
    have hr := elements_text (elem := 123 :: (elem ++ [125])) (t := fieldTok elem) (by simp) (fun rest => by
      have e : 123 :: (elem ++ [125]) ++ rest = 123 :: (elem ++ 125 :: rest) := by simp
      rw [e, parse_field_text _ elem rest he]
      simp)
    have hn : (93 : UInt8) ∉ 123 :: (elem ++ [125]) ++ b!", ..." := by simp [he']
    refine ⟨_, 2, by omega, ?_, (token_array (k := 0) (args := []) h3 hn hr).2, by simp [Group.text]; omega, fun k args => ?_⟩
    · simp; omega
    · rw [(token_field h1 hb).1, (token_array h3 hn hr).1]
      simp [toks]
  | arrayBytes body sub =>
    obtain ⟨⟨hb, -⟩, he, he', he2⟩ := hg
    have h1 : s.drop i = List.replicate j 32 ++ 123 :: (body ++ 125 :: (b!" [({" ++ sub ++ b!"} bytes), ...]" ++ rest)) := by rw [h]; simp [Group.text]
    have h2 := (token_field (k := 0) (args := []) h1 hb).2
    have h3 : s.drop (i + j + (body.length + 2)) = List.replicate 1 32 ++ 91 :: ((40 :: (123 :: (sub ++ b!"} bytes") ++ [41]) ++ b!", ...") ++ 93 :: rest) := by
      rw [h2]; simp
    have hr := elements_text (elem := 40 :: (123 :: (sub ++ b!"} bytes") ++ [41])) (t := bytesTok sub) (by simp) (fun rest => by
      have e : 40 :: (123 :: (sub ++ b!"} bytes") ++ [41]) ++ rest = 40 :: ((123 :: (sub ++ b!"} bytes")) ++ 41 :: rest) := by simp
      rw [e]
      have hl : (40 :: ((123 :: (sub ++ b!"} bytes")) ++ 41 :: rest)).length + 1 = (sub.length + rest.length + 9) + 2 := by simp; omega
      rw [hl, parse_bytes_text _ sub rest he he2]
      simp)
    have hn : (93 : UInt8) ∉ 40 :: (123 :: (sub ++ b!"} bytes") ++ [41]) ++ b!", ..." := by simp [he']
    refine ⟨_, 2, by omega, ?_, (token_array (k := 0) (args := []) h3 hn hr).2, by simp [Group.text]; omega, fun k args => ?_⟩
    · simp; omega
    · rw [(token_field h1 hb).1, (token_array h3 hn hr).1]
      simp [toks]

theorem tokenize_note (s : Bytes) : ∀ (gs : List Group) (i j : Nat), (∀ g ∈ gs, g.Ok) → i ≤ s.length →
    s.drop i = (if gs = [] then [] else List.replicate j 32 ++ noteText gs) →
    ∀ k args, s.length - i < k → tokenizeFrom s k i args = .ok (args ++ gs.flatMap toks)
  | [], i, j, _, hi, hs, k, args, hk => by
    obtain ⟨k, rfl⟩ : ∃ m, k = m + 1 := ⟨k - 1, by omega⟩
    have : s.length ≤ i := by simpa using hs
    rw [tokenizeFrom, if_neg (by omega)]
    simp
  | g :: gs, i, j, hok, hi, hs, k, args, hk => by
    rw [if_neg (by simp)] at hs
    have hs' : s.drop i = List.replicate j 32 ++ (g.text ++ (if gs = [] then [] else List.replicate 1 32 ++ noteText gs)) := by
      rw [hs]
      cases gs with
      | nil => simp [noteText]
      | cons g' gs => simp [noteText]
    obtain ⟨i', n, hn, hle, hd, hi', hstep⟩ := token_group (hok g List.mem_cons_self) hs'
    have hl := congrArg List.length hs'
    simp at hl
    have hlt : 0 < g.text.length := by cases g <;> simp [Group.text]
    have hle' : i' ≤ s.length := by omega
    obtain ⟨k', rfl⟩ : ∃ m, k = m + n := ⟨k - n, by omega⟩
    rw [hstep, tokenize_note s gs i' 1 (fun g hg => hok g (List.mem_cons_of_mem _ hg)) hle' hd k' _ (by omega)]
    simp

/-- The argument for an immediate. -/
def Spec.Group.arg (g : Group) : ImmArg := { name := g.shown, array := g.isArray }

theorem toks_head (g : Group) : ∃ body l, toks g = fieldTok body :: l ∧ (g.Ok → fieldName body ≠ b!"bytes") := by
  cases g with
  | one body => exact ⟨body, _, rfl, fun h => h.2⟩
  | bytes body => exact ⟨body, _, rfl, fun h => h.2⟩
  | array body elem => exact ⟨body, _, rfl, fun h => h.1.2⟩
  | arrayBytes body sub => exact ⟨body, _, rfl, fun h => h.1.2⟩

theorem immArg_field (body : Bytes) : immArg (fieldTok body) false = { name := shown body, array := false } := by
  simp only [immArg, fieldTok, Arg.n, Arg.v, split_name, shown, braced]
  rfl

theorem immArgs_toks : ∀ gs : List Group, (∀ g ∈ gs, g.Ok) → immArgs (gs.flatMap toks) = gs.map Group.arg
  | [], _ => rfl
  | g :: gs, h => by
    have ih := immArgs_toks gs fun g hg => h g (List.mem_cons_of_mem _ hg)
    rw [List.flatMap_cons, List.map_cons]
    cases g with
    | one body =>
      cases gs with
      | nil => simp [toks, immArgs, immArg_field, Group.arg, Group.shown, Group.isArray]
      | cons g' gs =>
        obtain ⟨body', l, hl, hne⟩ := toks_head g'
        have hne := hne (h g' (by simp))
        rw [← ih, List.flatMap_cons, hl]
        show immArgs (fieldTok body :: fieldTok body' :: (l ++ gs.flatMap toks)) = _
        rw [immArgs.eq_def]
        show (if (splitSpace body').2.getD (splitSpace body').1 = b!"bytes" then _ else _) = _
        rw [split_name, if_neg hne, immArg_field]
        rfl
    | bytes body =>
      show immArgs (fieldTok body :: fieldTok b!"bytes" :: gs.flatMap toks) = _
      rw [immArgs.eq_def]
      show (if (splitSpace b!"bytes").2.getD (splitSpace b!"bytes").1 = b!"bytes" then _ else _) = _
      rw [if_pos (by decide), ih, immArg_field]
      rfl
    | array body elem =>
      show immArgs (fieldTok body :: .array _ [fieldTok elem, .var] :: gs.flatMap toks) = _
      rw [immArgs, ih]
      simp only [immArg, fieldTok, Arg.n, Arg.v, split_name, braced, Group.arg, Group.shown, Group.isArray, shown]
      rfl
    | arrayBytes body sub =>
      show immArgs (fieldTok body :: .array _ [bytesTok sub, .var] :: gs.flatMap toks) = _
      rw [immArgs, ih]
      rfl

instance (g : Group) : Decidable g.Ok := by cases g <;> unfold Group.Ok BodyOk <;> infer_instance

/-- The notes of the language specification (langspec.json). -/
def notes : List (Bytes × List Group) :=
  [(b!"", []),
   (b!"{int16 branch offset, big-endian}", [.one b!"int16 branch offset, big-endian"]),
   (b!"{int8 frame slot}", [.one b!"int8 frame slot"]),
   (b!"{uint8 account params field index}", [.one b!"uint8 account params field index"]),
   (b!"{uint8 app params field index}", [.one b!"uint8 app params field index"]),
   (b!"{uint8 arg index N}", [.one b!"uint8 arg index N"]),
   (b!"{uint8 arguments} {uint8 return values}", [.one b!"uint8 arguments", .one b!"uint8 return values"]),
   (b!"{uint8 asset holding field index}", [.one b!"uint8 asset holding field index"]),
   (b!"{uint8 asset params field index}", [.one b!"uint8 asset params field index"]),
   (b!"{uint8 block field}", [.one b!"uint8 block field"]),
   (b!"{uint8 branch count} [{int16 branch offset, big-endian}, ...]", [.array b!"uint8 branch count" b!"int16 branch offset, big-endian"]),
   (b!"{uint8 byte constant index}", [.one b!"uint8 byte constant index"]),
   (b!"{uint8 copy count}", [.one b!"uint8 copy count"]),
   (b!"{uint8 curve index}", [.one b!"uint8 curve index"]),
   (b!"{uint8 depth}", [.one b!"uint8 depth"]),
   (b!"{uint8 encoding index}", [.one b!"uint8 encoding index"]),
   (b!"{uint8 global field index}", [.one b!"uint8 global field index"]),
   (b!"{uint8 int constant index}", [.one b!"uint8 int constant index"]),
   (b!"{uint8 parameters index}", [.one b!"uint8 parameters index"]),
   (b!"{uint8 position in scratch space to load from}", [.one b!"uint8 position in scratch space to load from"]),
   (b!"{uint8 position in scratch space to store to}", [.one b!"uint8 position in scratch space to store to"]),
   (b!"{uint8 return type}", [.one b!"uint8 return type"]),
   (b!"{uint8 stack depth}", [.one b!"uint8 stack depth"]),
   (b!"{uint8 start position}", [.one b!"uint8 start position"]),
   (b!"{uint8 start position} {uint8 end position}", [.one b!"uint8 start position", .one b!"uint8 end position"]),
   (b!"{uint8 start position} {uint8 length}", [.one b!"uint8 start position", .one b!"uint8 length"]),
   (b!"{uint8 transaction field index}", [.one b!"uint8 transaction field index"]),
   (b!"{uint8 transaction field index} {uint8 transaction field array index}", [.one b!"uint8 transaction field index", .one b!"uint8 transaction field array index"]),
   (b!"{uint8 transaction group index}", [.one b!"uint8 transaction group index"]),
   (b!"{uint8 transaction group index} {uint8 position in scratch space to load from}", [.one b!"uint8 transaction group index", .one b!"uint8 position in scratch space to load from"]),
   (b!"{uint8 transaction group index} {uint8 transaction field index}", [.one b!"uint8 transaction group index", .one b!"uint8 transaction field index"]),
   (b!"{uint8 transaction group index} {uint8 transaction field index} {uint8 transaction field array index}", [.one b!"uint8 transaction group index", .one b!"uint8 transaction field index", .one b!"uint8 transaction field array index"]),
   (b!"{varuint count} [({varuint value length} bytes), ...]", [.arrayBytes b!"varuint count" b!"varuint value length"]),
   (b!"{varuint count} [{varuint value}, ...]", [.array b!"varuint count" b!"varuint value"]),
   (b!"{varuint int}", [.one b!"varuint int"]),
   (b!"{varuint length} {bytes}", [.bytes b!"varuint length"])]

end Teal.Imm

namespace Teal.Props
open Imm Imm.Spec

/-- **C54** Whatever the note, parsing it ends, without a slice out of range, with a list of arguments
or with an error. -/
theorem C54_total (s : Bytes) : parseImmArgs s = .err ∨ ∃ args, parseImmArgs s = .ok args := by
  have h : Fine (fun _ => True) (parseImmArgs s) := by
    unfold parseImmArgs tokenize
    exact (fine_tokenize s _ 0 [] (by omega) (by omega)).bind fun _ _ => trivial
  cases hx : parseImmArgs s with
  | ok a => exact .inr ⟨a, rfl⟩
  | err => exact .inl rfl
  | panic => rw [hx] at h; exact h.elim
  | hang => rw [hx] at h; exact h.elim

/-- **C54** A note is read to one argument for each of its immediates, in order, shown as it is
written, with arrays and labels marked as such. -/
theorem C54_note (gs : List Group) (h : ∀ g ∈ gs, g.Ok) :
    parseImmArgs (noteText gs) = .ok (gs.map fun g => { name := g.shown, array := g.isArray }) := by
  unfold parseImmArgs tokenize
  rw [tokenize_note (noteText gs) gs 0 0 h (by omega) (by cases gs <;> simp [noteText]) _ _ (by omega), ok_bind, List.nil_append,
    immArgs_toks gs h]
  rfl

/-- The notes of the language specification are such notes. -/
theorem C54_all_notes : ∀ p ∈ notes, p.1 = noteText p.2 ∧ parseImmArgs p.1 = .ok (p.2.map fun g => { name := g.shown, array := g.isArray }) := by
  have h : ∀ p ∈ notes, p.1 = noteText p.2 ∧ ∀ g ∈ p.2, g.Ok := by
    decide +kernel
  intro p hp
  refine ⟨(h p hp).1, ?_⟩
  rw [(h p hp).1]
  exact C54_note _ (h p hp).2

/-- Outside such notes: an array without a count before it is not flagged. -/
example : parseImmArgs b!"[{uint8 x}]" = .ok [{ name := b!"{{uint8 x}}", array := false }] := by decide +kernel

/-- A note that is cut off is an error. -/
example : parseImmArgs b!"{uint8 x" = .err := by decide +kernel

end Teal.Props
