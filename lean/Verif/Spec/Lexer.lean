import Verif.Model.Lexer

/-!
# Specification of the lexical grammar

A declarative, position-aware description of how a TEAL source text decomposes into
tokens.  It mentions only bytes and the observable `Token` fields; it does not use the
lexer's state, loops or rune decoding.
-/

namespace Teal.Spec

open Teal

/-- Space or tab. -/
def Blank (c : UInt8) : Prop := c = chSpace ∨ c = chTab
/-- Carriage return or line feed. -/
def Break (c : UInt8) : Prop := c = chCR ∨ c = chLF
/-- A byte that ends an unquoted word. -/
def Stop (c : UInt8) : Prop := Blank c ∨ Break c

instance : DecidablePred Blank := fun c => by unfold Blank; infer_instance
instance : DecidablePred Break := fun c => by unfold Break; infer_instance
instance : DecidablePred Stop := fun c => by unfold Stop; infer_instance

/-- `rest` is empty or begins with a byte satisfying `P`. -/
def AtEndOr (P : UInt8 → Prop) (rest : Bytes) : Prop :=
  rest = [] ∨ ∃ c t, rest = c :: t ∧ P c

/-- `NoQuote prev s`: reading `s` after the byte `prev`, no quote in `s` is read whose
previous byte is not a backslash. -/
inductive NoQuote : UInt8 → Bytes → Prop
  | nil (prev : UInt8) : NoQuote prev []
  | cons (prev c : UInt8) (t : Bytes) (h : c = chQuote → prev = chBackslash)
      (ht : NoQuote c t) : NoQuote prev (c :: t)

/-- The byte before the closing quote of a literal with body `s`. -/
def lastByte (s : Bytes) : UInt8 := s.getLast?.getD chQuote

/-- `Lexes l c src ts err`: starting on line `l`, column `c`, the text `src` consists of the
tokens `ts`; `err` is the position of the error for an unterminated string, if any. -/
inductive Lexes : Nat → Nat → Bytes → List Token → Option (Nat × Nat) → Prop
  /-- end of text -/
  | done (l c : Nat) : Lexes l c [] [] none
  /-- blanks between tokens are skipped -/
  | blank (l c : Nat) (x : UInt8) (rest : Bytes) (ts : List Token) (err : Option (Nat × Nat))
      (hx : Blank x) (h : Lexes l (c + 1) rest ts err) : Lexes l c (x :: rest) ts err
  /-- a line break: `\n`, `\r\n`, or `\r` not followed by `\n` -/
  | eol (l c : Nat) (raw rest : Bytes) (ts : List Token) (err : Option (Nat × Nat))
      (hraw : raw = [chLF] ∨ raw = [chCR, chLF] ∨ (raw = [chCR] ∧ rest.head? ≠ some chLF))
      (h : Lexes (l + 1) 0 rest ts err) :
      Lexes l c (raw ++ rest) ({ v := raw, l := l, b := c, e := c + raw.length, t := .eol } :: ts) err
  /-- a comment: `//` up to, not including, the next line break -/
  | comment (l c : Nat) (v rest : Bytes) (ts : List Token) (err : Option (Nat × Nat))
      (hv : ∀ x ∈ v, ¬ Break x) (hrest : AtEndOr Break rest)
      (h : Lexes l (c + (v.length + 2)) rest ts err) :
      Lexes l c (chSlash :: chSlash :: (v ++ rest))
        ({ v := v, l := l, b := c, e := c + (v.length + 2), t := .comment } :: ts) err
  /-- an unquoted word: up to, not including, the next blank or line break -/
  | bare (l c : Nat) (v rest : Bytes) (ts : List Token) (err : Option (Nat × Nat))
      (hne : v ≠ []) (hq : v.head? ≠ some chQuote) (hsl : v.take 2 ≠ [chSlash, chSlash])
      (hv : ∀ x ∈ v, ¬ Stop x) (hrest : AtEndOr Stop rest)
      (h : Lexes l (c + v.length) rest ts err) :
      Lexes l c (v ++ rest) ({ v := v, l := l, b := c, e := c + v.length, t := .value } :: ts) err
  /-- a quoted literal, from the opening quote to the first quote not directly preceded by a
  backslash; its value has the backslash removed from each `\"` -/
  | quoted (l c : Nat) (body rest : Bytes) (ts : List Token) (err : Option (Nat × Nat))
      (hbody : NoQuote chQuote body) (hlast : lastByte body ≠ chBackslash)
      (h : Lexes l (c + (body.length + 2)) rest ts err) :
      Lexes l c (chQuote :: (body ++ chQuote :: rest))
        ({ v := chQuote :: (unescapeQuotes body ++ [chQuote]), l := l, b := c,
           e := c + (body.length + 2), t := .value } :: ts) err
  /-- a quoted literal that is never closed swallows the rest of the text -/
  | unterminated (l c : Nat) (rest : Bytes) (h : NoQuote chQuote rest) :
      Lexes l c (chQuote :: rest) [] (some (l, c + (rest.length + 1)))

/-- Number of line breaks (`\n`, `\r\n`, `\r`) in a text. -/
def breaks : Bytes → Nat
  | [] => 0
  | [c] => if c = chCR ∨ c = chLF then 1 else 0
  | c :: d :: t =>
    if c = chCR ∧ d = chLF then breaks t + 1
    else if c = chCR ∨ c = chLF then breaks (d :: t) + 1
    else breaks (d :: t)

/-- Number of bytes after the last line break of a text. -/
def column (s : Bytes) : Nat :=
  (s.reverse.takeWhile (fun c => !(c == chCR || c == chLF))).length

end Teal.Spec

namespace Teal.Spec

open Teal

/-- `Unescaped s u`: `u` is `s` with the backslash removed from every `\"`. -/
inductive Unescaped : Bytes → Bytes → Prop
  | nil : Unescaped [] []
  | esc (t u : Bytes) (h : Unescaped t u) : Unescaped (chBackslash :: chQuote :: t) (chQuote :: u)
  | keep (c : UInt8) (t u : Bytes) (hc : ¬ (c = chBackslash ∧ t.head? = some chQuote))
      (h : Unescaped t u) : Unescaped (c :: t) (c :: u)

/-- `Spelled tok raw`: `raw` is a source spelling of the token `tok`. -/
inductive Spelled (tok : Token) (raw : Bytes) : Prop
  | eol (ht : tok.t = .eol) (hv : tok.v = raw)
      (hraw : raw = [chLF] ∨ raw = [chCR, chLF] ∨ raw = [chCR])
  | comment (ht : tok.t = .comment) (hraw : raw = chSlash :: chSlash :: tok.v)
      (hv : ∀ x ∈ tok.v, ¬ Break x)
  | bare (ht : tok.t = .value) (hv : tok.v = raw) (hne : raw ≠ [])
      (hq : raw.head? ≠ some chQuote) (hs : ∀ x ∈ raw, ¬ Stop x)
  | quoted (ht : tok.t = .value) (body u : Bytes) (hraw : raw = chQuote :: (body ++ [chQuote]))
      (hv : tok.v = chQuote :: (u ++ [chQuote])) (hu : Unescaped body u)
      (hbody : NoQuote chQuote body) (hlast : lastByte body ≠ chBackslash)

/-- A token together with its spelling and the blanks skipped before it. -/
structure Piece where
  blank : Bytes
  raw : Bytes
  tok : Token

/-- The text of a list of pieces. -/
def textOf (ps : List Piece) : Bytes := ps.flatMap (fun p => p.blank ++ p.raw)

/-- `Decomposes src toks ps tail`: `src` is the text of the pieces followed by `tail`, and
the pieces carry exactly the tokens `toks`, each properly spelled and preceded by blanks. -/
structure Decomposes (src : Bytes) (toks : List Token) (ps : List Piece) (tail : Bytes) : Prop where
  toks_eq : toks = ps.map Piece.tok
  src_eq : src = textOf ps ++ tail
  pieces : ∀ p ∈ ps, (∀ x ∈ p.blank, Blank x) ∧ Spelled p.tok p.raw

/-- No string literal among the pieces contains a line break. -/
def OneLineStrings (ps : List Piece) : Prop :=
  ∀ p ∈ ps, p.tok.t = .value → ∀ x ∈ p.raw, ¬ Break x

/-- The body of a TEAL string literal: a backslash escapes exactly the next character; an
unescaped quote does not occur. -/
inductive LiteralBody : Bytes → Prop
  | nil : LiteralBody []
  | plain (c : UInt8) (t : Bytes) (hq : c ≠ chQuote) (hb : c ≠ chBackslash)
      (h : LiteralBody t) : LiteralBody (c :: t)
  | esc (c : UInt8) (t : Bytes) (h : LiteralBody t) : LiteralBody (chBackslash :: c :: t)

/-- Two adjacent backslashes occur nowhere in the text. -/
def NoDoubleBackslash : Bytes → Prop
  | [] => True
  | [_] => True
  | c :: d :: t => ¬ (c = chBackslash ∧ d = chBackslash) ∧ NoDoubleBackslash (d :: t)

/-- Move a token down by `n` lines. -/
def moveDown (n : Nat) (t : Token) : Token := { t with l := t.l + n }

/-- A quote typed right after `pre` opens a string literal: after `pre`, `""` is a token of
its own. -/
def OpensLiteral (lex : Bytes → List Token × List LexError) (pre : Bytes) : Prop :=
  ∃ tok, lex (pre ++ [chQuote, chQuote]) = ((lex pre).1 ++ [tok], []) ∧
    tok.v = [chQuote, chQuote]

end Teal.Spec
