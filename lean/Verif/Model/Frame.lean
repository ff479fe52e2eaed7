import Verif.Model.Strconv
import Verif.Model.Lsp

/-!
# Frames on the streams of the language server and the debug adapter

`lsp/lsp.go:2118-2150, 2163-2215` and `dbg/dbg.go:742-774, 787-839`, which are the same.  The
packages `net/textproto` and `net/http` are not part of the repository; what is used of them is
modelled from their documentation.  Where versions of Go differ (keys and values with bytes that
HTTP forbids), they are read as errors, as since Go 1.20.
-/

namespace Teal.Frame

open Teal

def isBlank (c : UInt8) : Bool := c = chSpace || c = chTab

/-- `write` (lsp.go:2118-2150, dbg.go:742-774): `http.Header.Write` on a header with one key, an
empty line, the body. -/
def writeFrame (body : Bytes) : Bytes :=
  b!"Content-Length: " ++ formatUint body.length ++ [chCR, chLF] ++ [chCR, chLF] ++ body

/-- `bufio.Reader.ReadLine`: up to the first line feed, which is dropped with a carriage return
before it; what is left if there is none; `none` at the end. -/
def readLine (s : Bytes) : Option (Bytes × Bytes) :=
  if s = [] then none
  else
    let line := s.takeWhile (· ≠ chLF)
    match s.dropWhile (· ≠ chLF) with
    | [] => some (line, [])
    | _ :: rest => some (if line.getLast? = some chCR then line.dropLast else line, rest)

/-- `textproto.trim`. -/
def trimBlank (s : Bytes) : Bytes := ((s.dropWhile isBlank).reverse.dropWhile isBlank).reverse

/-- The lines that start with a blank, joined to the first one; each round reads at least one
byte, so that `fuel` bytes are enough. -/
def continued : Nat → Bytes → Bytes → Bytes × Bytes
  | 0, line, s => (line, s)
  | fuel + 1, line, s =>
    if (s.takeWhile isBlank) = [] then (line, s)
    else
      match readLine (s.dropWhile isBlank) with
      | none => (line, [])
      | some (l, rest) => continued fuel (line ++ chSpace :: trimBlank l) rest

/-- A token byte of RFC 7230 (`validHeaderFieldByte`). -/
def isTokenByte (c : UInt8) : Bool :=
  (48 ≤ c && c ≤ 57) || (65 ≤ c && c ≤ 90) || (97 ≤ c && c ≤ 122) || (b!"!#$%&'*+-.^_`|~").contains c

/-- `validHeaderValueByte`. -/
def isValueByte (c : UInt8) : Bool := c = chTab || (32 ≤ c && c ≠ 127)

/-- The loop of `canonicalMIMEHeaderKey`: upper case at the start and behind hyphens. -/
def canonLoop : Bool → Bytes → Bytes
  | _, [] => []
  | upper, c :: cs =>
    let c :=
      if upper && 97 ≤ c && c ≤ 122 then c - 32
      else if !upper && 65 ≤ c && c ≤ 90 then c + 32
      else c
    c :: canonLoop (c == 45) cs

/-- `canonicalMIMEHeaderKey`; `none`: not a key. -/
def canonKey (k : Bytes) : Option Bytes :=
  if k = [] then none
  else if k.all isTokenByte then some (canonLoop true k)
  else if k.all fun c => isTokenByte c || c = chSpace then some k
  else none

/-- How reading a header ends. -/
inductive Header where
  /-- the keys and values, and what follows the empty line -/
  | ok (kvs : List (Bytes × Bytes)) (rest : Bytes)
  /-- the header is malformed; what has not been read -/
  | bad (rest : Bytes)
  /-- the stream ends -/
  | eof
deriving DecidableEq, Repr

/-- The loop of `ReadMIMEHeader`; each round reads at least one byte. -/
def headerLoop : Nat → List (Bytes × Bytes) → Bytes → Header
  | 0, _, _ => .eof
  | fuel + 1, kvs, s =>
    match readLine s with
    | none => .eof
    | some (line, rest) =>
      if line = [] then .ok kvs rest
      else if line.contains chColon = false then .bad rest
      else
        let (kv, rest) := continued rest.length (trimBlank line) rest
        let k := kv.takeWhile (· ≠ chColon)
        let v := (kv.dropWhile (· ≠ chColon)).drop 1
        match canonKey k with
        | none => .bad rest
        | some key =>
          if v.all isValueByte then headerLoop fuel (kvs ++ [(key, v.dropWhile isBlank)]) rest
          else .bad rest

/-- `ReadMIMEHeader`: the first line must not start with a blank. -/
def readHeader (s : Bytes) : Header :=
  match s with
  | [] => .eof
  | c :: _ =>
    if isBlank c then
      match readLine s with
      | none => .eof
      | some (_, rest) => .bad rest
    else headerLoop (s.length + 1) [] s

/-- `http.Header.Get` with a canonical key. -/
def headerGet (kvs : List (Bytes × Bytes)) (key : Bytes) : Bytes :=
  ((kvs.find? fun kv => kv.1 == key).map (·.2)).getD []

/-- What one round of the loop of `Run` reads (lsp.go:2171-2188, dbg.go:795-813). -/
inductive Read where
  | body (b : Bytes) (rest : Bytes)
  /-- an error that is not the end of the stream; the loop goes on -/
  | error (rest : Bytes)
  /-- the loop ends -/
  | eof
  /-- `make` panics on a negative length -/
  | panic
deriving DecidableEq, Repr

/-- One round of the loop.  A body that is cut short ends the loop, now or in the next round.  A
length for which there is no memory, which panics, is treated like that too. -/
def readFrame (s : Bytes) : Read :=
  match readHeader s with
  | .eof => .eof
  | .bad rest => .error rest
  | .ok kvs rest =>
    match parseIntBase 10 64 (headerGet kvs b!"Content-Length") with
    | none => .error rest
    | some n =>
      if n < 0 then .panic
      else if rest.length < n then .eof
      else .body (rest.take n.toNat) (rest.drop n.toNat)

/-- The bodies the loop hands on, and whether it ends in a panic.  A round that does not end the
loop reads at least one byte. -/
def bodiesLoop : Nat → Bytes → List Bytes × Bool
  | 0, _ => ([], false)
  | fuel + 1, s =>
    match readFrame s with
    | .eof => ([], false)
    | .panic => ([], true)
    | .error rest => bodiesLoop fuel rest
    | .body b rest => let r := bodiesLoop fuel rest; (b :: r.1, r.2)

/-- The bodies read from a stream. -/
def bodies (s : Bytes) : List Bytes × Bool := bodiesLoop (s.length + 1) s

/-- The loop of `Run` (lsp.go:2163-2215) on a stream.  `decode` stands for `json.Unmarshal`, which
fails on some bodies; `choices` gives the orders of map iteration found while body `i` is
handled.  The server stops reading when it has exited; `Session.next` ignores what comes then. -/
def serve (h : Lsp.Host) (decode : Bytes → Option Lsp.Msg) (choices : Nat → Lsp.Choice) (s : Bytes) : Lsp.Session :=
  let r := Lsp.run h ((bodies s).1.zipIdx.filterMap fun p => (decode p.1).map fun m => (choices p.2, m))
  if (bodies s).2 && !r.st.exit then { r with crashed := true } else r

/-- What the server has written, with `encode` for `json.Marshal`. -/
def written (encode : Lsp.Sent → Bytes) (s : Lsp.Session) : Bytes := s.sent.flatMap fun x => writeFrame (encode x)

end Teal.Frame
