import Verif.Model.Utf8

/-!
# Notes on immediates (`langspec.go`)

The language specification describes the immediates of an opcode with a note such as
`{uint8 branch count} [{int16 branch offset, big-endian}, ...]`.  This is the parser of such notes.
Byte slices are lists; every slice expression is checked, and a loop that would run on after its last
byte ends as `hang`.
-/

namespace Teal.Imm

/-- What a call comes to: a value, an error, a slice out of range, or a loop that does not end.  The
index that Go returns beside an error is left out: no caller reads it. -/
inductive Res (α : Type) where
  | ok (a : α)
  | err
  | panic
  | hang
deriving DecidableEq, Repr

/-- Sequencing: anything but a value is returned as it is. -/
def Res.bind {α β : Type} (x : Res α) (f : α → Res β) : Res β :=
  match x with
  | .ok a => f a
  | .err => .err
  | .panic => .panic
  | .hang => .hang

/-- `s[i:]`. -/
def sliceFrom (s : Bytes) (i : Nat) : Res Bytes := if i ≤ s.length then .ok (s.drop i) else .panic

/-- `s[i:j]`. -/
def slice (s : Bytes) (i j : Nat) : Res Bytes := if i ≤ j ∧ j ≤ s.length then .ok ((s.take j).drop i) else .panic

/-- `immArg` (langspec.go:58-77).  The four kinds are the four constructors; only the members that the
code sets for a kind are kept.  `v` is the text in braces. -/
inductive Arg where
  | none
  | field (t n v : Bytes) (sub : Option Arg)
  | array (v : Bytes) (r : List Arg)
  | var

/-- `immArg.n`. -/
def Arg.n : Arg → Bytes
  | .field _ n _ _ => n
  | _ => []

/-- `immArg.v`. -/
def Arg.v : Arg → Bytes
  | .field _ _ v _ => v
  | .array v _ => v
  | _ => []

/-- `fmt.Sprintf("{%s}", v)`. -/
def braced (v : Bytes) : Bytes := b!"{" ++ v ++ b!"}"

/-- The loops that look for a closing character (langspec.go:135-164, 179-212, 240-294): from index
`i` on, the index of the first one and its width. -/
def scanTo (close : Nat) (s : Bytes) : Nat → Nat → Res (Nat × Nat)
  | 0, _ => .hang
  | k + 1, i =>
    if i = s.length then .err
    else
      (sliceFrom s i).bind fun t =>
        if (decodeRune t).1 = close then .ok (i, (decodeRune t).2) else scanTo close s k (i + (decodeRune t).2)

/-- The loop of `skipWhitespace` (langspec.go:302-309). -/
def skipLoop (s : Bytes) : Nat → Nat → Res Nat
  | 0, _ => .hang
  | k + 1, i =>
    (sliceFrom s i).bind fun t =>
      if (decodeRune t).1 = 32 then skipLoop s k (i + (decodeRune t).2) else .ok i

/-- `skipWhitespace` (langspec.go:298-313). -/
def skipWhitespace (s : Bytes) : Res Nat := if 0 < s.length then skipLoop s (s.length + 1) 0 else .ok 0

/-- The loop of `parseVarArg` (langspec.go:103-120). -/
def varLoop (s : Bytes) : Nat → Nat → Res (Arg × Nat)
  | 0, _ => .hang
  | k + 1, i =>
    if i = s.length then .err
    else
      (sliceFrom s i).bind fun t =>
        if (decodeRune t).1 ≠ 46 then .err
        else if i + (decodeRune t).2 = 3 then .ok (.var, i + (decodeRune t).2)
        else varLoop s k (i + (decodeRune t).2)

/-- `parseVarArg` (langspec.go:100-122). -/
def parseVarArg (s : Bytes) : Res (Arg × Nat) := varLoop s (s.length + 1) 0

/-- `strings.SplitN(v, " ", 2)` as its first and its last part (langspec.go:188-199). -/
def splitSpace : Bytes → Bytes × Option Bytes
  | [] => ([], none)
  | c :: t => if c = 32 then ([], some t) else (c :: (splitSpace t).1, (splitSpace t).2)

/-- `parseFieldArg` (langspec.go:168-214). -/
def parseFieldArg (s : Bytes) : Res (Arg × Nat) :=
  if (decodeRune s).1 ≠ 123 then .err
  else
    (scanTo 125 s (s.length + 1) (decodeRune s).2).bind fun (i, n) =>
      (slice s (decodeRune s).2 i).bind fun v =>
        .ok (.field (splitSpace v).1 ((splitSpace v).2.getD (splitSpace v).1) (braced v) Option.none, i + n)

/-- `parseFieldBytesArg` (langspec.go:124-166); `inner` is the call of `parseField`. -/
def parseFieldBytesArg (inner : Bytes → Res (Arg × Nat)) (s : Bytes) : Res (Arg × Nat) :=
  if (decodeRune s).1 ≠ 40 then .err
  else
    (scanTo 41 s (s.length + 1) (decodeRune s).2).bind fun (i, n) =>
      (slice s (decodeRune s).2 i).bind fun v =>
        (inner v).bind fun (f, m) =>
          (sliceFrom v m).bind fun w =>
            (skipWhitespace w).bind fun j =>
              (sliceFrom v (m + j)).bind fun rest => .ok (.field [] rest (braced rest) (some f), i + n)

/-- `parseField` (langspec.go:86-98); the first argument bounds the depth of nested parentheses. -/
def parseField : Nat → Bytes → Res (Arg × Nat)
  | 0, _ => .hang
  | k + 1, s =>
    if (decodeRune s).1 = 40 then parseFieldBytesArg (parseField k) s
    else if (decodeRune s).1 = 123 then parseFieldArg s
    else if (decodeRune s).1 = 46 then parseVarArg s
    else .err

/-- The loop over the elements of an array (langspec.go:252-278). -/
def elements (v : Bytes) : Nat → Nat → List Arg → Res (List Arg)
  | 0, _, _ => .hang
  | k + 1, i, r =>
    if i = v.length then .ok r
    else
      (sliceFrom v i).bind fun w =>
        (parseField (w.length + 1) w).bind fun (arg, n) =>
          (sliceFrom v (i + n)).bind fun w' =>
            (skipWhitespace w').bind fun j =>
              if i + n + j < v.length then
                (sliceFrom v (i + n + j)).bind fun u =>
                  if (decodeRune u).1 ≠ 44 then .err
                  else
                    (sliceFrom v (i + n + j + (decodeRune u).2)).bind fun u' =>
                      (skipWhitespace u').bind fun j' =>
                        elements v k (i + n + j + (decodeRune u).2 + j') (r ++ [arg])
              else
                (sliceFrom v (i + n + j)).bind fun u' =>
                  (skipWhitespace u').bind fun j' => elements v k (i + n + j + j') (r ++ [arg])

/-- `immLexer.readArray` (langspec.go:231-296), from index `i` of the note on: the array and the index
behind it.  The member `p` of the lexer holds where the array begins. -/
def readArray (s : Bytes) (i : Nat) : Res (Arg × Nat) :=
  (sliceFrom s i).bind fun t =>
    if (decodeRune t).1 ≠ 91 then .err
    else
      (scanTo 93 s (s.length + 1) (i + (decodeRune t).2)).bind fun (j, n) =>
        (slice s (i + (decodeRune t).2) j).bind fun v =>
          (elements v (v.length + 1) 0 []).bind fun r => .ok (.array (braced v) r, j + n)

/-- `immLexer.readField` (langspec.go:216-229), from index `i` on. -/
def readField (s : Bytes) (i : Nat) : Res (Arg × Nat) :=
  (sliceFrom s i).bind fun t => (parseField (t.length + 1) t).bind fun (arg, n) => .ok (arg, i + n)

/-- `immLexer.tokenize` (langspec.go:317-340), from index `i` on with the arguments `args` so far. -/
def tokenizeFrom (s : Bytes) : Nat → Nat → List Arg → Res (List Arg)
  | 0, _, _ => .hang
  | k + 1, i, args =>
    if i < s.length then
      (sliceFrom s i).bind fun t =>
        (skipWhitespace t).bind fun j =>
          (sliceFrom s (i + j)).bind fun u =>
            if (decodeRune u).1 = 123 then
              (readField s (i + j)).bind fun (arg, i') => tokenizeFrom s k i' (args ++ [arg])
            else if (decodeRune u).1 = 91 then
              (readArray s (i + j)).bind fun (arg, i') => tokenizeFrom s k i' (args ++ [arg])
            else .err
    else .ok args

/-- `immLexer.tokenize` on a new lexer. -/
def tokenize (s : Bytes) : Res (List Arg) := tokenizeFrom s (s.length + 1) 0 []

/-- `ImmArg` (langspec.go:342-345). -/
structure ImmArg where
  name : Bytes
  array : Bool
deriving DecidableEq, Repr

/-- The name of the argument that comes of a token (langspec.go:393-404). -/
def immArg (t : Arg) (array : Bool) : ImmArg :=
  let v := if t.n = b!"branch offset, big-endian" then b!"{label}" else t.v
  { name := if array then b!"[" ++ v ++ b!", ...]" else v, array := array }

/-- The loop of `parseImmArgs` over the tokens (langspec.go:363-405). -/
def immArgs : List Arg → List ImmArg
  | [] => []
  | [t] => [immArg t false]
  | t :: nt :: ts =>
    match nt with
    | .array v [] => immArg (.array v []) true :: immArgs ts
    | .array _ (f :: _) => immArg f true :: immArgs ts
    | .field _ n _ _ => if n = b!"bytes" then immArg nt false :: immArgs ts else immArg t false :: immArgs (nt :: ts)
    | _ => immArg t false :: immArgs (nt :: ts)

/-- `parseImmArgs` (langspec.go:351-408); the empty list that Go returns beside an error is left out. -/
def parseImmArgs (s : Bytes) : Res (List ImmArg) := (tokenize s).bind fun ts => .ok (immArgs ts)

end Teal.Imm
