import Verif.Spec.Signature
import Verif.Model.Operand

/-!
# Specification: what is said about operands

Which word of an instruction is blamed, and what is said.  The operands are those of the signature.  The texts
that the libraries have for what they cannot read are in `e`.
-/

namespace Teal.Spec

open Teal

/-- What is said about a field that a later version has. -/
def TooNew (since ver : Nat) (m : Bytes) : Prop :=
  ∃ s t, DecimalOf since s ∧ DecimalOf ver t ∧ m = b!"not available in this version (need >= " ++ s ++ b!", got: " ++ t ++ b!")"

/-- The kinds of fields whose messages begin with the name of the operand. -/
def namedKinds : List (Bytes × Bytes) :=
  [(b!"transaction field index", b!"failed to parse txn field: "),
   (b!"transaction array field index", b!"failed to parse txn field: "),
   (b!"internal transaction field index", b!"failed to parse txn field: "),
   (b!"EC group field index", b!"failed to parse EC group field: "),
   (b!"base64 encoding", b!"failed to parse base64 encoding field: "),
   (b!"json_Ref", b!"failed to parse JSON ref field: "),
   (b!"ECDSA Curve", b!"failed to parse ESCDS curve index: ")]

/-- How a message about a field begins. -/
def Operand.heading (o : Operand) : Bytes :=
  match namedKinds.lookup o.kind with
  | some s => s ++ o.name ++ b!": "
  | none => []

/-- `Says e ver o ws i m`: about words `ws` that do not begin with an operand as `o` describes it `m` is said, at the word `i`. -/
inductive Says (e : ErrorTexts) (ver : Nat) (o : Operand) : List Bytes → Nat → Bytes → Prop
  | byte (x : Bytes) (ws : List Bytes) (hk : o.kind = b!"uint8") :
      Says e ver o (x :: ws) 0 (b!"failed to parse uint8: " ++ o.name ++ b!": " ++ e.uint8 x)
  | small (x : Bytes) (ws : List Bytes) (hk : o.kind = b!"int8") :
      Says e ver o (x :: ws) 0 (b!"failed to parse int8: " ++ o.name ++ b!": " ++ e.int8 x)
  | uint (x : Bytes) (ws : List Bytes) (hk : o.kind = b!"uint64") :
      Says e ver o (x :: ws) 0 (b!"failed to parse uint64: " ++ o.name ++ b!": " ++ e.uint64 x)
  | address (x : Bytes) (ws : List Bytes) (hk : o.kind = b!"address") : Says e ver o (x :: ws) 0 (e.addr x)
  | signature (x : Bytes) (ws : List Bytes) (hk : o.kind = b!"signature") : Says e ver o (x :: ws) 0 b!"missing quotes"
  -- fields
  | newField (x : Bytes) (ws : List Bytes) (names : List DocField) (d : DocField) (m : Bytes) (hk : (o.kind, names) ∈ fieldKinds)
      (hd : d ∈ names) (hx : d.name = x) (hm : TooNew d.since ver m) : Says e ver o (x :: ws) 0 (o.heading ++ m)
  | noField (x : Bytes) (ws : List Bytes) (names : List DocField) (hk : (o.kind, names) ∈ fieldKinds) (hx : ∀ d ∈ names, d.name ≠ x) :
      Says e ver o (x :: ws) 0 (o.heading ++ b!"failed to parse txn field: " ++ e.uint8 x)
  | newTxn (x : Bytes) (ws : List Bytes) (d : DocTxnField) (m : Bytes) (hk : o.kind = b!"transaction field index")
      (hd : d ∈ txnFields) (hx : d.name = x) (hm : TooNew d.since ver m) : Says e ver o (x :: ws) 0 (o.heading ++ m)
  | notArray (x : Bytes) (ws : List Bytes) (d : DocTxnField) (hk : o.kind = b!"transaction array field index") (hd : d ∈ txnFields)
      (hx : d.name = x) (ha : d.array = false) : Says e ver o (x :: ws) 0 (o.heading ++ b!"not available in array context")
  | notInner (x : Bytes) (ws : List Bytes) (d : DocTxnField) (hk : o.kind = b!"internal transaction field index") (hd : d ∈ txnFields)
      (hx : d.name = x) (ha : d.inner = none) : Says e ver o (x :: ws) 0 (o.heading ++ b!"not available for internal transactions")
  | newInner (x : Bytes) (ws : List Bytes) (d : DocTxnField) (n : Nat) (m : Bytes) (hk : o.kind = b!"internal transaction field index")
      (hd : d ∈ txnFields) (hx : d.name = x) (ha : d.inner = some n) (hm : TooNew n ver m) : Says e ver o (x :: ws) 0 (o.heading ++ m)
  | noTxn (x : Bytes) (ws : List Bytes)
      (hk : o.kind ∈ [b!"transaction field index", b!"transaction array field index", b!"internal transaction field index"])
      (hx : ∀ d ∈ txnFields, d.name ≠ x) : Says e ver o (x :: ws) 0 (o.heading ++ b!"failed to parse txn field: " ++ e.uint8 x)
  -- byte constants
  | open32 (p s : Bytes) (ws : List Bytes) (hk : o.kind = b!"bytes") (hp : p ∈ [b!"base32(", b!"b32("]) (hs : 41 ∉ s) :
      Says e ver o ((p ++ s) :: ws) 0 b!"byte base32 arg lacks close paren"
  | open64 (p s : Bytes) (ws : List Bytes) (hk : o.kind = b!"bytes") (hp : p ∈ [b!"base64(", b!"b64("]) (hs : 41 ∉ s) :
      Says e ver o ((p ++ s) :: ws) 0 b!"byte base64 arg lacks close paren"
  | base32 (p s : Bytes) (ws : List Bytes) (hk : o.kind = b!"bytes") (hp : p ∈ [b!"base32(", b!"b32("]) (hs : 41 ∉ s) :
      Says e ver o ((p ++ s ++ [41]) :: ws) 0 (e.base32 s)
  | base64 (p s : Bytes) (ws : List Bytes) (hk : o.kind = b!"bytes") (hp : p ∈ [b!"base64(", b!"b64("]) (hs : 41 ∉ s) :
      Says e ver o ((p ++ s ++ [41]) :: ws) 0 (e.base64 s)
  | hex (s : Bytes) (ws : List Bytes) (hk : o.kind = b!"bytes") : Says e ver o ((b!"0x" ++ s) :: ws) 0 (e.hex s)
  | literal (x : Bytes) (hk : o.kind = b!"bytes") (hx : x ∈ [b!"base32", b!"b32", b!"base64", b!"b64"]) :
      Says e ver o [x] 0 b!"missing arg: literal"
  | base32' (p x : Bytes) (ws : List Bytes) (hk : o.kind = b!"bytes") (hp : p ∈ [b!"base32", b!"b32"]) :
      Says e ver o (p :: x :: ws) 1 (e.base32 x)
  | base64' (p x : Bytes) (ws : List Bytes) (hk : o.kind = b!"bytes") (hp : p ∈ [b!"base64", b!"b64"]) :
      Says e ver o (p :: x :: ws) 1 (e.base64 x)
  | string (s : Bytes) (ws : List Bytes) (hk : o.kind = b!"bytes") :
      Says e ver o ((34 :: (s ++ [34])) :: ws) 0 (e.string (34 :: (s ++ [34])))
  | other (x : Bytes) (ws : List Bytes) (hk : o.kind = b!"bytes")
      (hp : ∀ p ∈ [b!"base32(", b!"b32(", b!"base64(", b!"b64(", b!"0x"], ∀ s, x ≠ p ++ s)
      (hx : x ∉ [b!"base32", b!"b32", b!"base64", b!"b64"]) (hq : ∀ s, x ≠ 34 :: (s ++ [34])) :
      Says e ver o (x :: ws) 0 (b!"byte arg did not parse: " ++ x)

/-- `Blames … started p os ws i m`: reading the operands `os` of the opcode `w` from the words `ws`, in front
of which there are `p` words of the line, stops at the word `i` of the line, and `m` is said.  A word that is
missing is said to be missing at the last word.  Once one of the operands that can be left out is there
(`started`), all have to be. -/
inductive Blames (e : ErrorTexts) (addrOk : Bytes → Bool) (ver : Nat) (w : Bytes) : Bool → Nat → List Operand → List Bytes → Nat → Bytes → Prop
  | missing (started : Bool) (p : Nat) (o : Operand) (os : List Operand) (hl : o.list = false) (ho : o.optional = true → started = true) :
      Blames e addrOk ver w started p (o :: os) [] (p - 1) (b!"missing arg: " ++ o.name)
  | here (started : Bool) (p : Nat) (o : Operand) (os : List Operand) (ws : List Bytes) (i : Nat) (m : Bytes)
      (hn : ∀ g rest, ws = g ++ rest → ¬ OfKind addrOk ver w o.kind g) (hm : Says e ver o ws i m) :
      Blames e addrOk ver w started p (o :: os) ws (p + i) m
  | next (started : Bool) (p : Nat) (o : Operand) (os : List Operand) (g ws : List Bytes) (i : Nat) (m : Bytes) (hl : o.list = false)
      (hg : OfKind addrOk ver w o.kind g) (hs : Blames e addrOk ver w o.optional (p + g.length) os ws i m) :
      Blames e addrOk ver w started p (o :: os) (g ++ ws) i m
  | again (started : Bool) (p : Nat) (o : Operand) (os : List Operand) (g ws : List Bytes) (i : Nat) (m : Bytes) (hl : o.list = true)
      (hg : OfKind addrOk ver w o.kind g) (hs : Blames e addrOk ver w started (p + g.length) (o :: os) ws i m) :
      Blames e addrOk ver w started p (o :: os) (g ++ ws) i m

/-- The diagnostics about operands on line `k`: an operand is missing or cannot be read. -/
def OperandDiag (k : Nat) (d : Diag) : Prop :=
  d.l = k ∧ d.kind ∈ [DiagKind.parse .missingArg, .parse .badUint64, .parse .badUint8, .parse .badInt8, .parse .badField,
    .parse .badBytes, .parse .badAddr, .parse .missingQuotes]

/-- `PragmaBlames e ws i m`: about a line `#pragma` with the words `ws` behind it `m` is said, at the word `i`. -/
inductive PragmaBlames (e : ErrorTexts) : List Bytes → Nat → Bytes → Prop
  | name : PragmaBlames e [] 0 b!"missing arg: name"
  | value : PragmaBlames e [b!"version"] 1 b!"missing arg: version value"
  | number (x : Bytes) (ws : List Bytes) (hx : ∀ n, ¬ IsUint x n) :
      PragmaBlames e (b!"version" :: x :: ws) 2 (b!"failed to parse uint64: version value: " ++ e.uint64 x)

/-- The diagnostics about the operands of line `k`: whatever is to be said is said by a diagnostic that covers
the word it is about, nothing else is, and there is at most one. -/
structure SaysExactly (text : Diag → Bytes) (diags : List Diag) (k : Nat) (line : List Token) (said : Nat → Bytes → Prop) : Prop where
  all : ∀ i m, said i m → ∃ u d, line[i]? = some u ∧ d ∈ diags ∧ OperandDiag k d ∧ d.b = u.b ∧ d.e = u.e ∧ text d = m
  only : ∀ d ∈ diags, OperandDiag k d → ∃ i u, line[i]? = some u ∧ d.b = u.b ∧ d.e = u.e ∧ said i (text d)
  once : ∀ d ∈ diags, ∀ d' ∈ diags, OperandDiag k d → OperandDiag k d' → d = d'

end Teal.Spec
