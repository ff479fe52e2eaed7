import Verif.Model.Utf8

/-!
# The lexer (`lexer.go`) and `readTokens` (`process.go`)
-/

namespace Teal

/-- `TokenType` (lexer.go:8-16). -/
inductive TokenType where
  | eol
  | value
  | comment
deriving DecidableEq, Repr, Inhabited

/-- `Token` (lexer.go:18-26): value, line, begin and end column, type. -/
structure Token where
  v : Bytes
  l : Nat
  b : Nat
  e : Nat
  t : TokenType
deriving DecidableEq, Repr, Inhabited

/-- The messages passed to `Lexer.fail` (lexer.go:164, 231, 251). -/
inductive LexMsg where
  | incompleteString
  | incompleteComment
deriving DecidableEq, Repr

/-- `lexerError` (lexer.go:127-132). -/
structure LexError where
  l : Nat
  li : Nat
  msg : LexMsg
deriving DecidableEq, Repr

/-- `Lexer` (lexer.go:64-78). All integers are non-negative in the code, too: `p`, `lb ≤ i`
is an invariant (proved in `Lemmas/Lexer`), so natural-number subtraction is exact. -/
structure Lexer where
  p : Nat := 0
  i : Nat := 0
  l : Nat := 0
  lb : Nat := 0
  li : Nat := 0
  ts : List Token := []
  tsi : Nat := 0
  diag : List LexError := []
  source : Bytes
deriving Repr

namespace Lexer

/-- `z.Source[z.i:]`. -/
def rest (z : Lexer) : Bytes := z.source.drop z.i

/-- `Source[a:b]`. -/
def slice (z : Lexer) (a b : Nat) : Bytes := (z.source.drop a).take (b - a)

/-- `Lexer.fail` (lexer.go:80-87). -/
def fail (z : Lexer) (msg : LexMsg) : Lexer :=
  { z with diag := z.diag ++ [{ l := z.l, li := z.li, msg := msg }] }

/-- `Lexer.inc` (lexer.go:89-92). -/
def inc (z : Lexer) (n : Nat) : Lexer :=
  { z with i := z.i + n, li := z.li + n }

/-- Append a token with text `v` spanning `p..i`, then set `p = i`: the common part of
`emit` (lexer.go:94-104), and of the literal blocks lexer.go:175-184, 235-244, 256-265. -/
def push (z : Lexer) (v : Bytes) (t : TokenType) : Lexer :=
  { z with
    ts := z.ts ++ [{ l := z.l, b := z.p - z.lb, e := z.i - z.lb, v := v, t := t }]
    p := z.i }

/-- `Lexer.emit` (lexer.go:94-112). -/
def emit (z : Lexer) (t : TokenType) : Lexer :=
  let z' := z.push (z.slice z.p z.i) t
  match t with
  | .eol => { z' with l := z'.l + 1, li := 0, lb := z'.i }
  | _ => z'

end Lexer

/-- `isTerminating` (lexer.go:114-125). -/
def isTerminating (c : Nat) : Bool :=
  c == 13 || c == 10 || c == 32 || c == 9

/-- `strings.ReplaceAll(s, "\\\"", "\"")` (used at lexer.go:173): every backslash directly
followed by a quote is dropped, scanning left to right without overlaps. -/
def unescapeQuotes : Bytes → Bytes
  | [] => []
  | [c] => [c]
  | c :: d :: t =>
    if c = chBackslash ∧ d = chQuote then chQuote :: unescapeQuotes t
    else c :: unescapeQuotes (d :: t)

namespace Lexer

/-- The string loop of `readValue` (lexer.go:162-191); `p` is the previously read rune.
`fuel` bounds the number of iterations: each consumes at least one byte. -/
def readString : Nat → Nat → Lexer → Lexer
  | 0, _, z => z
  | fuel + 1, p, z =>
    if z.i = z.source.length then z.fail .incompleteString
    else
      let (c, n) := decodeRune z.rest
      if c = 34 ∧ p ≠ 92 then
        let z := z.inc n
        let s := z.slice (z.p + 1) (z.i - 1)
        z.push (chQuote :: (unescapeQuotes s ++ [chQuote])) .value
      else readString fuel c (z.inc n)

/-- The other loop of `readValue` (lexer.go:193-206). -/
def readBare : Nat → Lexer → Lexer
  | 0, z => z
  | fuel + 1, z =>
    if z.i = z.source.length then z.emit .value
    else
      let (c, n) := decodeRune z.rest
      if isTerminating c then z.emit .value
      else readBare fuel (z.inc n)

/-- `Lexer.readValue` (lexer.go:158-208). -/
def readValue (z : Lexer) : Lexer :=
  let (p, n) := decodeRune z.rest
  if p = 34 then readString (z.source.length + 1) p (z.inc n)
  else readBare (z.source.length + 1) z

/-- `Lexer.skipWhitespace` (lexer.go:210-224). -/
def skipWhitespace : Nat → Lexer → Lexer
  | 0, z => z
  | fuel + 1, z =>
    if z.i = z.source.length then z
    else
      let (c, n) := decodeRune z.rest
      if c ≠ 32 ∧ c ≠ 9 then z
      else
        let z := z.inc n
        skipWhitespace fuel { z with p := z.i }

/-- `Lexer.readComment` (lexer.go:226-272). -/
def readComment : Nat → Lexer → Lexer
  | 0, z => z
  | fuel + 1, z =>
    let l := z.i - z.p
    if z.i = z.source.length then
      if l < 2 then z.fail .incompleteComment
      else z.push (z.slice (z.p + 2) z.i) .comment
    else
      let (c, n) := decodeRune z.rest
      if l < 2 then
        if c ≠ 47 then z.fail .incompleteComment
        else readComment fuel (z.inc n)
      else if c = 13 ∨ c = 10 then z.push (z.slice (z.p + 2) z.i) .comment
      else readComment fuel (z.inc n)

/-- `Lexer.readEol` (lexer.go:274-302). -/
def readEol : Nat → Lexer → Lexer
  | 0, z => z
  | fuel + 1, z =>
    if z.i = z.source.length then z.emit .eol
    else
      let (c, n) := decodeRune z.rest
      if c = 13 then
        let z := z.inc n
        let z :=
          if z.i < z.source.length then
            let (c2, n2) := decodeRune z.rest
            if c2 = 10 then z.inc n2 else z
          else z
        z.emit .eol
      else if c = 10 then (z.inc n).emit .eol
      else readEol fuel (z.inc n)

/-- `Lexer.readTokens` (lexer.go:304-323). `nc` is the zero rune when there is no next
character. -/
def readTokens (z : Lexer) : Lexer :=
  let z := z.skipWhitespace (z.source.length + 1)
  if z.i < z.source.length then
    let (c, n) := decodeRune z.rest
    let nc := if z.i + n < z.source.length then (decodeRune (z.source.drop (z.i + n))).1 else 0
    if c = 47 ∧ nc = 47 then z.readComment (z.source.length + 1)
    else if c = 10 ∨ c = 13 then z.readEol (z.source.length + 1)
    else z.readValue
  else z

/-- `Lexer.read` (lexer.go:325-331). -/
def read (z : Lexer) : Lexer :=
  if z.i = z.source.length then z else z.readTokens

/-- `Lexer.Scan` (lexer.go:343-353). -/
def scan (z : Lexer) : Lexer × Bool :=
  let z := if z.ts.length > z.tsi then { z with tsi := z.tsi + 1 } else z
  let z := if z.ts.length = z.tsi then z.read else z
  (z, decide (z.ts.length > z.tsi))

/-- `Lexer.Curr` (lexer.go:355-361); the zero `Token` has an empty type in Go, which is never
observed here because `Curr` is only called after a successful `Scan`. -/
def curr (z : Lexer) : Token :=
  if z.ts.length = z.tsi then { v := [], l := 0, b := 0, e := 0, t := .eol }
  else z.ts.getD z.tsi { v := [], l := 0, b := 0, e := 0, t := .eol }

end Lexer

/-- The loop `for s.Scan() { ts = append(ts, s.Curr()) }` (process.go:3119-3121). -/
def readTokensLoop : Nat → Lexer → List Token → Lexer × List Token
  | 0, z, ts => (z, ts)
  | fuel + 1, z, ts =>
    let (z, ok) := z.scan
    if ok then readTokensLoop fuel z (ts ++ [z.curr]) else (z, ts)

/-- `readTokens` (process.go:3114-3130): all tokens and lexical diagnostics of a source. -/
def readTokens (source : Bytes) : List Token × List LexError :=
  let (z, ts) := readTokensLoop (source.length + 1) { source := source } []
  (ts, z.diag)

end Teal
